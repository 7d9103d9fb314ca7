import Verif.Model.IoStream
import Verif.Props.QuaternionAngle
import Verif.Props.Transforms
import Mathlib.Data.Nat.Digits.Defs

/-!
# Properties C65 to C68: printing and reading
-/

namespace Mathter.Props
open Mathter

/-! ## Specification of texts -/

/-- Texts with matching brackets. -/
inductive Balanced : List Char → Prop
  | nil : Balanced []
  | char (c : Char) (s : List Char) (h1 : c ≠ '[') (h2 : c ≠ ']') : Balanced s → Balanced (c :: s)
  | nest (a b : List Char) : Balanced a → Balanced b → Balanced ('[' :: (a ++ ']' :: b))

/-- Texts with matching brackets and no separator outside of brackets. -/
inductive Piece (sep : Char) : List Char → Prop
  | nil : Piece sep []
  | char (c : Char) (s : List Char) (h1 : c ≠ '[') (h2 : c ≠ ']') (h3 : c ≠ sep) : Piece sep s → Piece sep (c :: s)
  | nest (a b : List Char) : Balanced a → Piece sep b → Piece sep ('[' :: (a ++ ']' :: b))

/-- Texts joined by a separator. -/
def joinSep (sep : Char) : List (List Char) → List Char
  | [] => []
  | [p] => p
  | p :: q :: t => p ++ sep :: joinSep sep (q :: t)

/-- The six whitespace characters: space, tab, newline, carriage return, vertical tab, form feed. -/
def Blank (c : Char) : Prop := c ∈ [' ', '\t', '\n', '\r', Char.ofNat 11, Char.ofNat 12]

instance (c : Char) : Decidable (Blank c) := by unfold Blank; infer_instance

/-- Whitespace. -/
def IsWs (ws : List Char) : Prop := ∀ c ∈ ws, Blank c

/-- Printing `x` and reading the text after any whitespace gives `y`. -/
def ElemReads {α : Type*} (e : Elem α) (x y : α) : Prop :=
  Piece ',' (e.print x) ∧ ∀ ws, IsWs ws → ∀ old, ∃ st, e.parse old ⟨ws ++ e.print x, true⟩ = .ok (y, st)

/-- A scalar's text has no special characters, and reading it gives `y` and leaves what follows. -/
def NumReads {α : Type*} (io : NumIO α) (x y : α) : Prop :=
  io.put x ≠ [] ∧ (∀ c ∈ io.put x, c ≠ '[' ∧ c ≠ ']' ∧ c ≠ ',' ∧ c ≠ '@' ∧ ¬Blank c) ∧
  ∀ rest, (∀ c, rest.head? = some c → c = ' ' ∨ c = 'j') → io.get (io.put x ++ rest) = (y, rest, true)

/-! ## Helpers -/

private theorem isSpace_iff {c : Char} : isSpace c = true ↔ Blank c := by
  simp [isSpace, Blank, or_assoc]

private theorem isSpace_false {c : Char} (h : ¬Blank c) : isSpace c = false := by
  rw [← Bool.not_eq_true, isSpace_iff]
  exact h

private theorem Piece.balanced {sep : Char} {s : List Char} (h : Piece sep s) : Balanced s := by
  induction h with
  | nil => exact .nil
  | char c s h1 h2 _ _ ih => exact .char c s h1 h2 ih
  | nest a b ha _ ih => exact .nest a b ha ih

private theorem Balanced.append {s t : List Char} (hs : Balanced s) (ht : Balanced t) : Balanced (s ++ t) := by
  induction hs with
  | nil => exact ht
  | char c s h1 h2 _ ih => exact .char c _ h1 h2 ih
  | nest a b ha _ _ ih =>
    have := Balanced.nest a _ ha ih
    simpa using this

private theorem Piece.append {sep : Char} {s t : List Char} (hs : Piece sep s) (ht : Piece sep t) : Piece sep (s ++ t) := by
  induction hs with
  | nil => exact ht
  | char c s h1 h2 h3 _ ih => exact .char c _ h1 h2 h3 ih
  | nest a b ha _ ih =>
    have := Piece.nest a _ ha ih
    simpa using this

private theorem Piece.of_chars {sep : Char} (s : List Char) (h : ∀ c ∈ s, c ≠ '[' ∧ c ≠ ']' ∧ c ≠ sep) : Piece sep s := by
  induction s with
  | nil => exact .nil
  | cons c s ih =>
    obtain ⟨h1, h2, h3⟩ := h c (by simp)
    exact .char c s h1 h2 h3 (ih fun x hx => h x (by simp [hx]))

private theorem splitGo_balanced (sep : Char) {s : List Char} (h : Balanced s) : ∀ (d : ℤ) (cur rest : List Char), 0 < d →
    splitGo sep d cur (s ++ rest) = splitGo sep d (cur ++ s) rest := by
  induction h with
  | nil => intro d cur rest _; simp
  | char c s h1 h2 _ ih =>
    intro d cur rest hd
    rw [List.cons_append, splitGo, if_neg h1, if_neg h2, if_neg (fun h => hd.ne' h.1), ih d _ _ hd]
    simp
  | nest a b _ _ iha ihb =>
    intro d cur rest hd
    rw [List.cons_append, splitGo, if_pos rfl, List.append_assoc, iha _ _ _ (by omega), List.cons_append, splitGo, if_neg (by decide), if_pos rfl,
      show d + 1 - 1 = d by ring, ihb d _ _ hd]
    simp

private theorem splitGo_piece (sep : Char) {s : List Char} (h : Piece sep s) : ∀ (cur rest : List Char),
    splitGo sep 0 cur (s ++ rest) = splitGo sep 0 (cur ++ s) rest := by
  induction h with
  | nil => intro cur rest; simp
  | char c s h1 h2 h3 _ ih =>
    intro cur rest
    rw [List.cons_append, splitGo, if_neg h1, if_neg h2, if_neg (fun h => h3 h.2), ih]
    simp
  | nest a b ha _ ihb =>
    intro cur rest
    rw [List.cons_append, splitGo, if_pos rfl, List.append_assoc, splitGo_balanced sep ha _ _ _ (by omega), List.cons_append, splitGo,
      if_neg (by decide), if_pos rfl, show (0 : ℤ) + 1 - 1 = 0 by ring, ihb]
    simp

/-- `SplitArray` recovers the pieces. -/
private theorem splitArray_join (sep : Char) (h1 : sep ≠ '[') (h2 : sep ≠ ']') (ps : List (List Char)) (hne : ps ≠ [])
    (h : ∀ p ∈ ps, Piece sep p) : splitArray (joinSep sep ps) sep = ps := by
  rw [splitArray]
  induction ps with
  | nil => exact absurd rfl hne
  | cons p t ih =>
    cases t with
    | nil =>
      have := splitGo_piece sep (h p (by simp)) [] []
      rw [List.append_nil] at this
      rw [joinSep, this, splitGo]; rfl
    | cons q t =>
      rw [joinSep, splitGo_piece sep (h p (by simp)), splitGo, if_neg h1, if_neg h2, if_pos ⟨rfl, rfl⟩, ih (by simp)]
      · rfl
      · intro p hp; exact h p (by simp [hp])

private theorem joinSep_balanced (sep : Char) (h1 : sep ≠ '[') (h2 : sep ≠ ']') (ps : List (List Char)) (h : ∀ p ∈ ps, Piece sep p) :
    Balanced (joinSep sep ps) := by
  induction ps with
  | nil => exact .nil
  | cons p t ih =>
    cases t with
    | nil => exact (h p (by simp)).balanced
    | cons q t =>
      rw [joinSep]
      exact (h p (by simp)).balanced.append (.char _ _ h1 h2 (ih fun p hp => h p (by simp [hp])))

private theorem readArrayGo_balanced {s : List Char} (h : Balanced s) : ∀ (d : ℤ) (rest : List Char), 0 < d →
    readArrayGo d (s ++ rest) = (readArrayGo d rest).map fun p => (s ++ p.1, p.2) := by
  induction h with
  | nil => intro d rest _; simp
  | char c s h1 h2 _ ih =>
    intro d rest hd
    rw [List.cons_append, readArrayGo]
    simp only [depthAfter, h1, h2, if_false]
    rw [if_neg hd.ne', ih d rest hd, Option.map_map]
    rfl
  | nest a b _ _ iha ihb =>
    intro d rest hd
    rw [List.cons_append, readArrayGo]
    simp only [depthAfter, if_true]
    rw [if_neg (by omega), List.append_assoc, iha _ _ (by omega), List.cons_append, readArrayGo]
    simp only [depthAfter, if_true, if_neg (show ¬ (']' = '[') by decide)]
    rw [if_neg (by omega), show d + 1 - 1 = d by ring, ihb d rest hd, Option.map_map, Option.map_map, Option.map_map]
    congr 1
    funext p
    simp

private theorem readArray_bracketed {s : List Char} (h : Balanced s) (rest : List Char) :
    readArray ⟨'[' :: (s ++ ']' :: rest), true⟩ = .ok ('[' :: (s ++ [']']), ⟨rest, true⟩) := by
  have : readArrayGo 0 ('[' :: (s ++ ']' :: rest)) = some ('[' :: (s ++ [']']), rest) := by
    rw [readArrayGo]
    simp only [depthAfter, if_true]
    rw [if_neg (by omega), readArrayGo_balanced h _ _ (by omega), readArrayGo]
    simp [depthAfter]
  rw [readArray]
  simp only [if_true, this]

private theorem innerText_bracketed (s : List Char) : innerText ('[' :: (s ++ [']'])) = s := by
  simp [innerText]

private theorem skipSpace_ws (ws : List Char) (h : IsWs ws) (rest : List Char) : skipSpace (ws ++ rest) = skipSpace rest := by
  induction ws with
  | nil => rfl
  | cons c ws ih =>
    rw [List.cons_append, skipSpace, if_pos (isSpace_iff.2 (h c (by simp))), ih fun c hc => h c (by simp [hc])]

private theorem dropWhile_ws (ws : List Char) (h : IsWs ws) (rest : List Char) : (ws ++ rest).dropWhile isSpace = rest.dropWhile isSpace := by
  induction ws with
  | nil => rfl
  | cons c ws ih =>
    rw [List.cons_append, List.dropWhile_cons_of_pos (isSpace_iff.2 <| h c (by simp)), ih fun c hc => h c (by simp [hc])]

private theorem parseElems_ok {α : Type*} (e : Elem α) : ∀ (os : List α) (ts : List (List Char)) (ws : List α), os.length = ts.length →
    ws.length = ts.length → (∀ (i : ℕ) o t w, os[i]? = some o → ts[i]? = some t → ws[i]? = some w → ∃ st, e.parse o ⟨t, true⟩ = .ok (w, st)) →
    parseElems e os ts = .ok ws := by
  intro os
  induction os with
  | nil =>
    intro ts ws h1 h2 _
    have : ws = [] := List.length_eq_zero_iff.1 (by rw [h2, ← h1]; rfl)
    rw [this]; rfl
  | cons o os ih =>
    intro ts ws h1 h2 h
    cases ts with
    | nil => simp at h1
    | cons t ts =>
      cases ws with
      | nil => simp at h2
      | cons w ws =>
        obtain ⟨st, hp⟩ := h 0 o t w rfl rfl rfl
        rw [parseElems, hp]
        dsimp only
        rw [ih ts ws (by simpa using h1) (by simpa using h2) fun i o t w a b c => h (i + 1) o t w a b c]

/-- Everything `ParseArray` does with a bracketed list of pieces. -/
private theorem parseArray_bracketed {α : Type*} (e : Elem α) {n : ℕ} (old : Fin n → α) (ws : List Char) (hws : IsWs ws) (ps : List (List Char))
    (hne : ps ≠ []) (h : ∀ p ∈ ps, Piece ',' p) (rest : List Char) :
    parseArray e old ⟨ws ++ '[' :: (joinSep ',' ps ++ ']' :: rest), true⟩ =
      if ps.length ≠ n then .error .invalidArgument
      else match parseElems e (List.ofFn old) ps with
        | .error x => .error x
        | .ok vs => .ok (fun i => vs.getD i (old i), ⟨rest, true⟩) := by
  have hsk : skipSpace ('[' :: (joinSep ',' ps ++ ']' :: rest)) = (some '[', ⟨'[' :: (joinSep ',' ps ++ ']' :: rest), true⟩) := by
    rw [skipSpace, if_neg (by decide)]
  rw [parseArray, readWhileSpace]
  simp only [if_true, skipSpace_ws ws hws, hsk, ne_eq, not_true, if_false, readArray_bracketed (joinSep_balanced ',' (by decide) (by decide) ps h),
    innerText_bracketed, splitArray_join ',' (by decide) (by decide) ps hne h]
  rfl

private theorem printElems_eq {α : Type*} (e : Elem α) (x : α) (t : List α) :
    printElems e (x :: t) = joinSep ',' (e.print x :: t.map fun y => ' ' :: e.print y) := by
  have key : ∀ (t : List α) (x : α) (pre : List Char), pre ++ printElems e (x :: t) = joinSep ',' ((pre ++ e.print x) :: t.map fun y => ' ' :: e.print y) := by
    intro t
    induction t with
    | nil => intro x pre; rfl
    | cons y t ih =>
      intro x pre
      rw [printElems, List.map_cons, joinSep]
      have := ih y [' ']
      rw [List.singleton_append, List.singleton_append] at this
      rw [← this]
      simp
  exact key t x []

/-! ## C65 -/

/-- C65: a printed vector is read back, whatever whitespace precedes it; the rest of the stream is left untouched. The elements are those
that the element type's own printing and reading gives. -/
theorem C65_round_trip {α : Type*} (e : Elem α) {n : ℕ} (v w old : Fin (n + 1) → α) (h : ∀ i, ElemReads e (v i) (w i)) (ws rest : List Char) (hws : IsWs ws) :
    parseArray e old ⟨ws ++ printArray e v ++ rest, true⟩ = .ok (w, ⟨rest, true⟩) := by
  have hp : printArray e v = '[' :: (joinSep ',' (e.print (v 0) :: (List.ofFn fun i : Fin n => v i.succ).map fun y => ' ' :: e.print y) ++ [']']) := by
    rw [printArray, List.ofFn_succ, printElems_eq]; rfl
  have hsp : IsWs [' '] := by
    intro c hc
    rw [List.mem_singleton] at hc
    rw [hc]; decide
  rw [hp, List.append_assoc, List.cons_append, List.append_assoc, List.singleton_append, parseArray_bracketed e old ws hws _ (by simp)]
  · rw [if_neg (by simp), parseElems_ok e _ _ (List.ofFn w)]
    · dsimp only
      congr 2
      funext i
      rw [List.getD_eq_getElem?_getD, List.getElem?_ofFn, dif_pos i.isLt]
      rfl
    · simp
    · simp
    · intro i o t x _ ht hx
      rcases i with _ | i
      · simp only [List.getElem?_cons_zero, Option.some_inj] at ht
        rw [List.ofFn_succ, List.getElem?_cons_zero, Option.some_inj] at hx
        subst ht hx
        simpa using (h 0).2 [] (by intro c hc; simp at hc) o
      · rw [List.getElem?_cons_succ, List.getElem?_map] at ht
        rw [List.ofFn_succ, List.getElem?_cons_succ] at hx
        by_cases hi : i < n
        · simp [hi] at ht hx
          subst ht hx
          exact (h _).2 [' '] hsp o
        · simp [hi] at ht
  · intro p hp
    rw [List.mem_cons] at hp
    rcases hp with rfl | hp
    · exact (h 0).1
    · rw [List.mem_map] at hp
      obtain ⟨y, hy, rfl⟩ := hp
      rw [List.mem_ofFn] at hy
      obtain ⟨i, rfl⟩ := hy
      exact .char _ _ (by decide) (by decide) (by decide) (h _).1

/-- C65: vectors are again elements of this kind, for the matrices of C66 and for any deeper nesting. -/
theorem C65_nested {α : Type*} (e : Elem α) (dflt : α) {n : ℕ} (v w : Fin (n + 1) → α) (h : ∀ i, ElemReads e (v i) (w i)) :
    ElemReads (vecElem e dflt (n + 1)) v w := by
  constructor
  · have : printArray e v = '[' :: (joinSep ',' (e.print (v 0) :: (List.ofFn fun i : Fin n => v i.succ).map fun y => ' ' :: e.print y) ++ ']' :: []) := by
      rw [printArray, List.ofFn_succ, printElems_eq]; rfl
    change Piece ',' (printArray e v)
    rw [this]
    refine .nest _ _ (joinSep_balanced _ (by decide) (by decide) _ ?_) .nil
    intro p hp
    rw [List.mem_cons] at hp
    rcases hp with rfl | hp
    · exact (h 0).1
    · rw [List.mem_map] at hp
      obtain ⟨y, hy, rfl⟩ := hp
      rw [List.mem_ofFn] at hy
      obtain ⟨i, rfl⟩ := hy
      exact .char _ _ (by decide) (by decide) (by decide) (h _).1
  · intro ws hws old
    have := C65_round_trip e v w (fun _ => dflt) h ws [] hws
    rw [List.append_nil] at this
    exact ⟨_, this⟩

/-- C65: scalars whose own text is read back. -/
theorem C65_scalars {α : Type*} (io : NumIO α) (x y : α) (h : NumReads io x y) : ElemReads (numElem io) x y := by
  obtain ⟨h1, h2, h3⟩ := h
  refine ⟨Piece.of_chars _ fun c hc => ⟨(h2 c hc).1, (h2 c hc).2.1, (h2 c hc).2.2.1⟩, fun ws hws old => ?_⟩
  have hdrop : (io.put x).dropWhile isSpace = io.put x := by
    cases hx : io.put x with
    | nil => rfl
    | cons c t =>
      rw [List.dropWhile_cons_of_neg]
      rw [isSpace_false (h2 c (by rw [hx]; simp)).2.2.2.2]; decide
  have hget := h3 [] (by simp)
  rw [List.append_nil] at hget
  change ∃ st, Except.ok (io.extract old ⟨ws ++ io.put x, true⟩) = Except.ok (y, st)
  rw [NumIO.extract]
  simp only [if_true, dropWhile_ws ws hws, hdrop, h1, if_false, hget]
  exact ⟨_, rfl⟩

/-- C65: any number of pieces other than the dimension is rejected. -/
theorem C65_wrong_count {α : Type*} (e : Elem α) {n : ℕ} (old : Fin n → α) (ws : List Char) (hws : IsWs ws) (ps : List (List Char)) (hne : ps ≠ [])
    (h : ∀ p ∈ ps, Piece ',' p) (hn : ps.length ≠ n) (rest : List Char) :
    parseArray e old ⟨ws ++ '[' :: (joinSep ',' ps ++ ']' :: rest), true⟩ = .error .invalidArgument := by
  rw [parseArray_bracketed e old ws hws ps hne h, if_pos hn]

/-- C65: a text whose first character after whitespace is not an opening bracket is rejected, and so is the end of the stream. -/
theorem C65_missing_open {α : Type*} (e : Elem α) {n : ℕ} (old : Fin n → α) (ws : List Char) (hws : IsWs ws) (s : List Char)
    (hs : ∀ c, s.head? = some c → c ≠ '[' ∧ ¬Blank c) : parseArray e old ⟨ws ++ s, true⟩ = .error .invalidArgument := by
  rw [parseArray, readWhileSpace]
  simp only [if_true, skipSpace_ws ws hws]
  cases s with
  | nil => simp [skipSpace]
  | cons c t =>
    obtain ⟨h1, h2⟩ := hs c rfl
    have hsk : skipSpace (c :: t) = (some c, ⟨c :: t, true⟩) := by rw [skipSpace, if_neg (by rw [isSpace_false h2]; decide)]
    simp only [hsk]
    rw [if_pos]
    rw [ne_eq, Option.some_inj]
    exact h1

private theorem readArrayGo_open (s : List Char) : ∀ d : ℤ, 0 < d → (∀ k, ((s.take k).count ']' : ℤ) < d + (s.take k).count '[') →
    readArrayGo d s = none := by
  induction s with
  | nil => intro d _ _; rfl
  | cons c s ih =>
    intro d hd h
    have hc : 0 < depthAfter d c := by
      have := h 1
      rw [depthAfter]
      split_ifs with h1 h2
      · omega
      · subst h2
        simp at this
        omega
      · exact hd
    rw [readArrayGo]
    simp only [hc.ne', if_false]
    rw [ih _ hc]
    · rfl
    · intro k
      have := h (k + 1)
      rw [List.take_succ_cons] at this
      rw [depthAfter]
      split_ifs with h1 h2
      · subst h1
        rw [List.count_cons_self, List.count_cons_of_ne (by decide)] at this
        push_cast at this
        omega
      · subst h2
        rw [List.count_cons_self, List.count_cons_of_ne (by decide)] at this
        push_cast at this
        omega
      · rw [List.count_cons_of_ne (by exact h2), List.count_cons_of_ne (by exact h1)] at this
        exact this

/-- C65: a text in which the first bracket is never closed is rejected. -/
theorem C65_missing_close {α : Type*} (e : Elem α) {n : ℕ} (old : Fin n → α) (ws : List Char) (hws : IsWs ws) (s : List Char)
    (hs : ∀ k, (s.take k).count ']' ≤ (s.take k).count '[') : parseArray e old ⟨ws ++ '[' :: s, true⟩ = .error .invalidArgument := by
  have hsk : skipSpace ('[' :: s) = (some '[', ⟨'[' :: s, true⟩) := by
    rw [skipSpace, if_neg (by decide)]
  have hgo : readArrayGo 0 ('[' :: s) = none := by
    rw [readArrayGo]
    simp only [depthAfter, if_true]
    rw [if_neg (by omega), readArrayGo_open s _ (by omega)]
    · rfl
    · intro k
      have := hs k
      omega
  rw [parseArray, readWhileSpace]
  simp only [if_true, skipSpace_ws ws hws, hsk, ne_eq, not_true, if_false, readArray, hgo]

/-! ### An actual scalar format: decimal integers -/

/-- The decimal digits of a number. -/
def natText (n : ℕ) : List Char := if n = 0 then ['0'] else (Nat.digits 10 n).reverse.map Nat.digitChar

/-- Reading decimal digits. -/
def natRead (s : List Char) : ℕ × List Char :=
  ((s.takeWhile Char.isDigit).foldl (fun a c => 10 * a + (c.toNat - '0'.toNat)) 0, s.dropWhile Char.isDigit)

/-- Decimal integers without leading zeros or plus sign, of unbounded size; a text without digits fails and gives zero. -/
def intIO : NumIO ℤ where
  put x := if x < 0 then '-' :: natText x.natAbs else natText x.natAbs
  get s :=
    match s with
    | '-' :: t => (-((natRead t).1 : ℤ), (natRead t).2, (t.head?.map Char.isDigit).getD false)
    | t => (((natRead t).1 : ℤ), (natRead t).2, (t.head?.map Char.isDigit).getD false)

private theorem digitChar_spec (d : ℕ) (h : d < 10) : (Nat.digitChar d).isDigit = true ∧ (Nat.digitChar d).toNat - '0'.toNat = d ∧
    Nat.digitChar d ≠ '-' := by
  interval_cases d <;> decide

/-- The text of a number consists of digits and denotes the number. -/
theorem natText_spec (n : ℕ) : natText n ≠ [] ∧ (∀ c ∈ natText n, c.isDigit = true ∧ c ≠ '-') ∧
    (natText n).foldl (fun a c => 10 * a + (c.toNat - '0'.toNat)) 0 = n := by
  rw [natText]
  by_cases h : n = 0
  · rw [if_pos h, h]
    refine ⟨by simp, ?_, rfl⟩
    intro c hc
    rw [List.mem_singleton] at hc
    rw [hc]; decide
  · rw [if_neg h]
    have hlt : ∀ d ∈ Nat.digits 10 n, d < 10 := fun d hd => Nat.digits_lt_base (by norm_num) hd
    refine ⟨?_, ?_, ?_⟩
    · simpa using Nat.digits_ne_nil_iff_ne_zero.2 h
    · intro c hc
      rw [List.mem_map] at hc
      obtain ⟨d, hd, rfl⟩ := hc
      obtain ⟨a, -, b⟩ := digitChar_spec d (hlt d (List.mem_reverse.1 hd))
      exact ⟨a, b⟩
    · rw [List.foldl_map, List.foldl_reverse]
      have : ∀ l : List ℕ, (∀ d ∈ l, d < 10) → l.foldr (fun d a => 10 * a + ((Nat.digitChar d).toNat - '0'.toNat)) 0 = Nat.ofDigits 10 l := by
        intro l hl
        induction l with
        | nil => rfl
        | cons d l ih =>
          rw [List.foldr_cons, ih fun x hx => hl x (by simp [hx]), (digitChar_spec d (hl d (by simp))).2.1, Nat.ofDigits_cons]
          simp [add_comm]
      rw [this _ hlt, Nat.ofDigits_digits]

private theorem natRead_spec (n : ℕ) (rest : List Char) (h : ∀ c, rest.head? = some c → c = ' ' ∨ c = 'j') :
    natRead (natText n ++ rest) = (n, rest) := by
  obtain ⟨-, h2, h3⟩ := natText_spec n
  have hr : rest.takeWhile Char.isDigit = [] ∧ rest.dropWhile Char.isDigit = rest := by
    cases rest with
    | nil => exact ⟨rfl, rfl⟩
    | cons c t =>
      have : c.isDigit = false := by
        rcases h c rfl with rfl | rfl <;> rfl
      exact ⟨List.takeWhile_cons_of_neg (by rw [this]; decide), List.dropWhile_cons_of_neg (by rw [this]; decide)⟩
  rw [natRead, List.takeWhile_append_of_pos fun c hc => (h2 c hc).1, List.dropWhile_append_of_pos fun c hc => (h2 c hc).1, hr.1, hr.2, List.append_nil, h3]

/-- Decimal integers are read back. -/
theorem intIO_reads (x : ℤ) : NumReads intIO x x := by
  obtain ⟨h1, h2, -⟩ := natText_spec x.natAbs
  have hplain : ∀ c : Char, c.isDigit = true ∨ c = '-' → c ≠ '[' ∧ c ≠ ']' ∧ c ≠ ',' ∧ c ≠ '@' ∧ ¬Blank c := by
    intro c hc
    have hsp : ∀ d, Blank d → d.isDigit = false ∧ d ≠ '-' := by
      intro d hd
      simp only [Blank, List.mem_cons, List.not_mem_nil, or_false] at hd
      rcases hd with rfl | rfl | rfl | rfl | rfl | rfl <;> decide
    refine ⟨?_, ?_, ?_, ?_, ?_⟩
    · rintro rfl; revert hc; decide
    · rintro rfl; revert hc; decide
    · rintro rfl; revert hc; decide
    · rintro rfl; revert hc; decide
    · intro hne
      obtain ⟨a, b⟩ := hsp c hne
      rcases hc with hc | hc
      · rw [a] at hc; exact absurd hc (by decide)
      · exact b hc
  have hhead : ∀ rest, ((natText x.natAbs ++ rest).head?.map Char.isDigit).getD false = true := by
    intro rest
    cases ht : natText x.natAbs with
    | nil => exact absurd ht h1
    | cons c t =>
      simp only [List.cons_append, List.head?_cons, Option.map_some, Option.getD_some]
      exact (h2 c (by rw [ht]; simp)).1
  refine ⟨?_, ?_, ?_⟩
  · change (if x < 0 then '-' :: natText x.natAbs else natText x.natAbs) ≠ []
    split_ifs
    · simp
    · exact h1
  · intro c hc
    change c ∈ (if x < 0 then '-' :: natText x.natAbs else natText x.natAbs) at hc
    apply hplain
    split_ifs at hc
    · rcases List.mem_cons.1 hc with hc | hc
      · exact Or.inr hc
      · exact Or.inl (h2 c hc).1
    · exact Or.inl (h2 c hc).1
  · intro rest hrest
    change intIO.get ((if x < 0 then '-' :: natText x.natAbs else natText x.natAbs) ++ rest) = _
    split_ifs with hx
    · rw [List.cons_append]
      simp only [intIO, natRead_spec _ rest hrest, hhead]
      rw [show (-(x.natAbs : ℤ)) = x by omega]
    · cases ht : natText x.natAbs ++ rest with
      | nil => simp [h1] at ht
      | cons c t =>
        have hc : c ≠ '-' := by
          cases hn : natText x.natAbs with
          | nil => exact absurd hn h1
          | cons c' t' =>
            rw [hn, List.cons_append, List.cons.injEq] at ht
            rw [← ht.1]
            exact (h2 c' (by rw [hn]; simp)).2
        have hg : intIO.get (c :: t) = (((natRead (c :: t)).1 : ℤ), (natRead (c :: t)).2, ((c :: t).head?.map Char.isDigit).getD false) := by
          simp only [intIO]
          split
          · rename_i t' he
            rw [List.cons.injEq] at he
            exact absurd he.1 hc
          · rfl
        rw [hg, ← ht, natRead_spec _ rest hrest, hhead]
        rw [show ((x.natAbs : ℕ) : ℤ) = x by omega]

/-- C65 for vectors of integers, without further assumptions. -/
theorem C65_integers {n : ℕ} (v old : Fin (n + 1) → ℤ) (ws rest : List Char) (hws : IsWs ws) :
    parseArray (numElem intIO) old ⟨ws ++ printArray (numElem intIO) v ++ rest, true⟩ = .ok (v, ⟨rest, true⟩) :=
  C65_round_trip _ v v old (fun i => C65_scalars _ _ _ (intIO_reads (v i))) ws rest hws

/-- C65: an element that cannot be read is not reported. -/
theorem C65_malformed_accepted : (parseArray (numElem intIO) (fun _ : Fin 2 => 7) ⟨['[', '1', ',', 'x', ']'], true⟩).toOption.map (fun r => r.1) =
    some ![1, 0] := by decide +kernel

/-! ## C66 -/

/-- C66: a printed matrix is read back. -/
theorem C66_round_trip {α : Type*} (e : Elem α) (dflt : α) {r c : ℕ} (m w : Fin (r + 1) → Fin (c + 1) → α) (h : ∀ i j, ElemReads e (m i j) (w i j))
    (ws rest : List Char) (hws : IsWs ws) :
    parseMatrix e dflt (r + 1) (c + 1) ⟨ws ++ printMatrix e dflt m ++ rest, true⟩ = .ok (w, ⟨rest, true⟩) :=
  C65_round_trip (vecElem e dflt (c + 1)) m w _ (fun i => C65_nested e dflt (m i) (w i) (h i)) ws rest hws

/-- C66 for matrices of integers, without further assumptions. -/
theorem C66_integers {r c : ℕ} (m : Fin (r + 1) → Fin (c + 1) → ℤ) (ws rest : List Char) (hws : IsWs ws) :
    parseMatrix (numElem intIO) 0 (r + 1) (c + 1) ⟨ws ++ printMatrix (numElem intIO) 0 m ++ rest, true⟩ = .ok (m, ⟨rest, true⟩) :=
  C66_round_trip _ _ m m (fun i j => C65_scalars _ _ _ (intIO_reads (m i j))) ws rest hws

private theorem parseElems_error {α : Type*} (e : Elem α) (E : Exc) : ∀ (os : List α) (ts : List (List Char)), os.length = ts.length →
    (∀ o t, t ∈ ts → e.parse o ⟨t, true⟩ = .error E ∨ ∃ r, e.parse o ⟨t, true⟩ = .ok r) →
    (∃ t ∈ ts, ∀ o, e.parse o ⟨t, true⟩ = .error E) → parseElems e os ts = .error E := by
  intro os
  induction os with
  | nil =>
    rintro ts h1 _ ⟨t, ht, _⟩
    cases ts with
    | nil => simp at ht
    | cons t ts => simp at h1
  | cons o os ih =>
    rintro ts h1 h2 h3
    cases ts with
    | nil => simp at h1
    | cons t ts =>
      rw [parseElems]
      rcases h2 o t (by simp) with he | ⟨r, he⟩
      · rw [he]
      · rw [he]
        dsimp only
        rw [ih ts (by simpa using h1) (fun o t ht => h2 o t (by simp [ht]))]
        obtain ⟨t', ht', hE⟩ := h3
        rcases List.mem_cons.1 ht' with rfl | ht'
        · rw [hE o] at he; exact absurd he (by simp)
        · exact ⟨t', ht', hE⟩

private theorem parseElems_num {α : Type*} (io : NumIO α) : ∀ (os : List α) (ts : List (List Char)), ∃ vs, parseElems (numElem io) os ts = .ok vs := by
  intro os
  induction os with
  | nil => intro ts; exact ⟨[], rfl⟩
  | cons o os ih =>
    intro ts
    cases ts with
    | nil => exact ⟨[], rfl⟩
    | cons t ts =>
      obtain ⟨vs, h⟩ := ih ts
      refine ⟨(io.extract o ⟨t, true⟩).1 :: vs, ?_⟩
      rw [parseElems, h]
      rfl

/-- The text of a row: whitespace and a bracketed list. -/
def rowText (row : List Char × List (List Char)) : List Char := row.1 ++ '[' :: (joinSep ',' row.2 ++ ']' :: [])

private theorem isWs_piece {ws : List Char} (h : IsWs ws) : Piece ',' ws := by
  refine Piece.of_chars _ fun c hc => ⟨?_, ?_, ?_⟩ <;> rintro rfl <;> exact absurd (h _ hc) (by decide)

/-- C66: a wrong number of rows, or a row with a wrong number of elements, is rejected. -/
theorem C66_rejects {α : Type*} (io : NumIO α) (dflt : α) (r c : ℕ) (rows : List (List Char × List (List Char))) (hne : rows ≠ [])
    (h : ∀ row ∈ rows, IsWs row.1 ∧ row.2 ≠ [] ∧ ∀ p ∈ row.2, Piece ',' p) (hbad : rows.length ≠ r ∨ ∃ row ∈ rows, row.2.length ≠ c)
    (ws rest : List Char) (hws : IsWs ws) :
    parseMatrix (numElem io) dflt r c ⟨ws ++ '[' :: (joinSep ',' (rows.map rowText) ++ ']' :: rest), true⟩ = .error .invalidArgument := by
  have hp : ∀ p ∈ rows.map rowText, Piece ',' p := by
    intro p hp
    rw [List.mem_map] at hp
    obtain ⟨row, hrow, rfl⟩ := hp
    obtain ⟨h1, -, h3⟩ := h row hrow
    exact (isWs_piece h1).append (.nest _ _ (joinSep_balanced _ (by decide) (by decide) _ h3) .nil)
  rw [parseMatrix, parseArray_bracketed _ _ ws hws _ (by simpa using hne) hp]
  by_cases hr : rows.length = r
  · obtain ⟨row, hrow, hc⟩ := hbad.resolve_left (not_not.2 hr)
    rw [if_neg (by simpa using hr)]
    rw [parseElems_error _ .invalidArgument _ _ (by simp [hr])]
    · intro o t ht
      rw [List.mem_map] at ht
      obtain ⟨row', hrow', rfl⟩ := ht
      obtain ⟨h1, h2, h3⟩ := h row' hrow'
      have hpe : (vecElem (numElem io) dflt c).parse o ⟨rowText row', true⟩ = parseArray (numElem io) (fun _ : Fin c => dflt) ⟨rowText row', true⟩ := rfl
      rw [hpe, rowText, parseArray_bracketed _ _ _ h1 _ h2 h3]
      by_cases hl : row'.2.length = c
      · right
        rw [if_neg (not_not.2 hl)]
        obtain ⟨vs, hvs⟩ := parseElems_num io (List.ofFn fun _ : Fin c => dflt) row'.2
        rw [hvs]
        exact ⟨_, rfl⟩
      · left
        rw [if_pos hl]
    · refine ⟨rowText row, List.mem_map_of_mem hrow, fun o => ?_⟩
      obtain ⟨h1, h2, h3⟩ := h row hrow
      exact C65_wrong_count (numElem io) (fun _ : Fin c => dflt) _ h1 _ h2 h3 hc []
  · rw [if_pos (by simpa using hr)]

/-- A ragged text. -/
example : rowText ([' '], [['1'], [' ', '2']]) = [' ', '[', '1', ',', ' ', '2', ']'] ∧ (2 : ℕ) ≠ 3 := by decide

/-! ## C67 -/

private theorem extract_reads {α : Type*} (io : NumIO α) (x y old : α) (h : NumReads io x y) (ws rest : List Char) (hws : IsWs ws)
    (hrest : ∀ c, rest.head? = some c → c = ' ' ∨ c = 'j') :
    io.extract old ⟨ws ++ (io.put x ++ rest), true⟩ = (y, ⟨rest, !rest.isEmpty⟩) := by
  obtain ⟨h1, h2, h3⟩ := h
  have hdrop : (io.put x ++ rest).dropWhile isSpace = io.put x ++ rest := by
    cases hx : io.put x with
    | nil => exact absurd hx h1
    | cons c t =>
      rw [List.cons_append, List.dropWhile_cons_of_neg]
      rw [isSpace_false (h2 c (by rw [hx]; simp)).2.2.2.2]; decide
  rw [NumIO.extract]
  simp only [if_true, dropWhile_ws ws hws, hdrop, h3 rest hrest, Bool.true_and]
  rw [if_neg]
  simp [h1]

/-- C67, partial: complex vectors without zero imaginary parts are read back. Missing: zero imaginary parts, see `C67_violated`. -/
theorem C67_partial {α : Type*} [Zero α] [DecidableEq α] (io : NumIO α) {n : ℕ} (v w old : Fin (n + 1) → α × α)
    (h : ∀ i, NumReads io (v i).1 (w i).1 ∧ NumReads io (v i).2 (w i).2) (him : ∀ i, (v i).2 ≠ 0) (ws rest : List Char) (hws : IsWs ws) :
    parseArray (complexElem io) old ⟨ws ++ printArray (complexElem io) v ++ rest, true⟩ = .ok (w, ⟨rest, true⟩) := by
  refine C65_round_trip _ v w old (fun i => ?_) ws rest hws
  obtain ⟨hre, him'⟩ := h i
  have hpr : (complexElem io).print (v i) = io.put (v i).1 ++ ([' ', '+', ' '] ++ io.put (v i).2 ++ ['j']) := by
    change printComplex io (v i) = _
    rw [printComplex, if_pos (him i)]
  have hpl : ∀ x y, NumReads io x y → Piece ',' (io.put x) := fun x y h => (C65_scalars io x y h).1
  refine ⟨?_, fun ws hws old => ?_⟩
  · rw [hpr]
    refine (hpl _ _ hre).append (Piece.append (Piece.append ?_ (hpl _ _ him')) ?_) <;> refine Piece.of_chars _ ?_ <;> decide
  · rw [hpr]
    change ∃ st, parseComplex io _ = _
    rw [parseComplex]
    simp only [extract_reads io _ _ 0 hre ws ([' ', '+', ' '] ++ io.put (v i).2 ++ ['j']) hws (by intro c hc; simp at hc; exact Or.inl hc.symm)]
    have hsk : skipSpace ([' ', '+', ' '] ++ io.put (v i).2 ++ ['j']) = (some '+', ⟨'+' :: ' ' :: (io.put (v i).2 ++ ['j']), true⟩) := by
      simp only [List.cons_append, List.nil_append]
      rw [skipSpace, if_pos (by decide), skipSpace, if_neg (by decide)]
    have hrw : readWhileSpace ⟨[' ', '+', ' '] ++ io.put (v i).2 ++ ['j'], !([' ', '+', ' '] ++ io.put (v i).2 ++ ['j']).isEmpty⟩ =
        .ok (some '+', ⟨'+' :: ' ' :: (io.put (v i).2 ++ ['j']), true⟩) := by
      rw [readWhileSpace, hsk]
      simp
    rw [hrw]
    simp only [if_true, List.drop_succ_cons, List.drop_zero]
    have := extract_reads io _ _ 0 him' [' '] ['j'] (by intro c hc; rw [List.mem_singleton] at hc; rw [hc]; decide) (by intro c hc; simp at hc; exact Or.inr hc.symm)
    rw [List.singleton_append] at this
    rw [this]
    exact ⟨_, rfl⟩

private theorem extract_blank {α : Type*} (io : NumIO α) (old : α) (ws : List Char) (hws : IsWs ws) : io.extract old ⟨ws, true⟩ = (old, ⟨[], false⟩) := by
  have := dropWhile_ws ws hws []
  rw [List.append_nil, List.dropWhile_nil] at this
  rw [NumIO.extract]
  simp only [if_true, this]

/-- C67: a text with a blank element after readable ones is rejected. -/
theorem C67_blank_rejected {α : Type*} [Zero α] [DecidableEq α] (io : NumIO α) {n : ℕ} (old : Fin n → α × α) (ps qs : List (List Char)) (b : List Char)
    (hn : ps.length + 1 + qs.length = n) (hb : IsWs b) (h : ∀ p ∈ ps, Piece ',' p ∧ ∃ r, (complexElem io).parse 0 ⟨p, true⟩ = .ok r)
    (hq : ∀ p ∈ qs, Piece ',' p) (ws rest : List Char) (hws : IsWs ws) :
    parseArray (complexElem io) old ⟨ws ++ '[' :: (joinSep ',' (ps ++ b :: qs) ++ ']' :: rest), true⟩ = .error .runtimeError := by
  have hp : ∀ p ∈ ps ++ b :: qs, Piece ',' p := by
    intro p hp
    rcases List.mem_append.1 hp with hp | hp
    · exact (h p hp).1
    · rcases List.mem_cons.1 hp with rfl | hp
      · exact isWs_piece hb
      · exact hq p hp
  have hlen : (ps ++ b :: qs).length = n := by rw [List.length_append, List.length_cons]; omega
  rw [parseArray_bracketed _ old ws hws _ (by simp) hp, if_neg (not_not.2 hlen)]
  have key : ∀ (ps : List (List Char)) (os : List (α × α)), ps.length < os.length → (∀ p ∈ ps, ∃ r, (complexElem io).parse 0 ⟨p, true⟩ = .ok r) →
      parseElems (complexElem io) os (ps ++ b :: qs) = .error .runtimeError := by
    intro ps
    induction ps with
    | nil =>
      intro os hos _
      cases os with
      | nil => exact absurd hos (by simp)
      | cons o os =>
        rw [List.nil_append, parseElems]
        have : (complexElem io).parse o ⟨b, true⟩ = .error .runtimeError := by
          change parseComplex io ⟨b, true⟩ = _
          rw [parseComplex]
          simp only [extract_blank io 0 b hb]
          rfl
        rw [this]
    | cons p ps ih =>
      intro os hos hr
      cases os with
      | nil => exact absurd hos (by simp)
      | cons o os =>
        obtain ⟨r, h1⟩ := hr p (by simp)
        have h2 : (complexElem io).parse o ⟨p, true⟩ = .ok r := h1
        rw [List.cons_append, parseElems, h2]
        simp only
        rw [ih os (by simpa using hos) fun q hq => hr q (by simp [hq])]
  rw [key ps _ (by rw [List.length_ofFn]; omega) fun p hp => (h p hp).2]

/-- A blank element after a number and a space. -/
example : IsWs ['\t', ' '] ∧ Piece ',' ['7', ' '] ∧ ∃ r, (complexElem intIO).parse 0 ⟨['7', ' '], true⟩ = .ok r :=
  ⟨by unfold IsWs; decide, Piece.of_chars _ (by decide), _, rfl⟩

/-- C67 is violated: a vector with a zero imaginary part is printed, but reading the text throws. -/
theorem C67_violated {α : Type*} [Zero α] [DecidableEq α] (io : NumIO α) {n : ℕ} (v w old : Fin (n + 1) → α × α)
    (h : ∀ i, NumReads io (v i).1 (w i).1 ∧ NumReads io (v i).2 (w i).2) (k : Fin (n + 1)) (him : (v k).2 = 0) (ws rest : List Char) (hws : IsWs ws) :
    parseArray (complexElem io) old ⟨ws ++ printArray (complexElem io) v ++ rest, true⟩ = .error .runtimeError := by
  have hpl : ∀ x y, NumReads io x y → Piece ',' (io.put x) := fun x y h => (C65_scalars io x y h).1
  have hpiece : ∀ i, Piece ',' ((complexElem io).print (v i)) := by
    intro i
    change Piece ',' (printComplex io (v i))
    rw [printComplex]
    split_ifs
    · refine (hpl _ _ (h i).1).append (Piece.append (Piece.append ?_ (hpl _ _ (h i).2)) ?_) <;> refine Piece.of_chars _ ?_ <;> decide
    · exact (hpl _ _ (h i).1).append .nil
  have hsp : IsWs [' '] := by
    intro c hc
    rw [List.mem_singleton] at hc
    rw [hc]; decide
  have hzero : ∀ i, (v i).2 = 0 → ∀ ws, IsWs ws → ∀ o, (complexElem io).parse o ⟨ws ++ (complexElem io).print (v i), true⟩ = .error .runtimeError := by
    intro i hi ws hws o
    change parseComplex io ⟨ws ++ printComplex io (v i), true⟩ = _
    rw [printComplex, if_neg (not_not.2 hi), parseComplex]
    simp only [extract_reads io _ _ 0 (h i).1 ws [] hws (by simp)]
    rfl
  have hany : ∀ i ws, IsWs ws → ∀ o, (complexElem io).parse o ⟨ws ++ (complexElem io).print (v i), true⟩ = .error .runtimeError ∨
      ∃ r, (complexElem io).parse o ⟨ws ++ (complexElem io).print (v i), true⟩ = .ok r := by
    intro i ws hws o
    by_cases hi : (v i).2 = 0
    · exact Or.inl (hzero i hi ws hws o)
    · right
      have := C67_partial io (n := 0) (fun _ => v i) (fun _ => w i) (fun _ => o) (fun _ => h i) (fun _ => hi) [] [] (by intro c hc; simp at hc)
      change ∃ r, parseComplex io _ = _
      rw [parseComplex]
      rcases hr : readWhileSpace (io.extract 0 ⟨ws ++ (complexElem io).print (v i), true⟩).2 with e | ⟨nx, s'⟩
      · exfalso
        have hpr : (complexElem io).print (v i) = io.put (v i).1 ++ ([' ', '+', ' '] ++ io.put (v i).2 ++ ['j']) := by
          change printComplex io (v i) = _
          rw [printComplex, if_pos hi]
        rw [hpr, extract_reads io _ _ 0 (h i).1 ws _ hws (by intro c hc; simp at hc; exact Or.inl hc.symm)] at hr
        simp [readWhileSpace] at hr
      · dsimp only
        split_ifs
        · exact ⟨_, rfl⟩
        · exact ⟨_, rfl⟩
  have hp : printArray (complexElem io) v = '[' :: (joinSep ',' ((complexElem io).print (v 0) :: (List.ofFn fun i : Fin n => v i.succ).map fun y => ' ' :: (complexElem io).print y) ++ [']']) := by
    rw [printArray, List.ofFn_succ, printElems_eq]; rfl
  rw [hp, List.append_assoc, List.cons_append, List.append_assoc, List.singleton_append, parseArray_bracketed _ old ws hws _ (by simp)]
  · rw [if_neg (by simp), parseElems_error _ .runtimeError _ _ (by simp)]
    · intro o t ht
      rcases List.mem_cons.1 ht with rfl | ht
      · exact hany 0 [] (by intro c hc; simp at hc) o
      · rw [List.mem_map] at ht
        obtain ⟨y, hy, rfl⟩ := ht
        rw [List.mem_ofFn] at hy
        obtain ⟨i, rfl⟩ := hy
        exact hany _ [' '] hsp o
    · rcases Fin.eq_zero_or_eq_succ k with hk | ⟨j, hk⟩
      · refine ⟨(complexElem io).print (v 0), by simp, fun o => ?_⟩
        exact hzero 0 (by rw [← hk]; exact him) [] (by intro c hc; simp at hc) o
      · refine ⟨' ' :: (complexElem io).print (v j.succ), ?_, fun o => ?_⟩
        · refine List.mem_cons_of_mem _ (List.mem_map.2 ⟨v j.succ, List.mem_ofFn.2 ⟨j, rfl⟩, rfl⟩)
        · exact hzero j.succ (by rw [← hk]; exact him) [' '] hsp o
  · intro p hp
    rw [List.mem_cons] at hp
    rcases hp with rfl | hp
    · exact hpiece 0
    · rw [List.mem_map] at hp
      obtain ⟨y, hy, rfl⟩ := hp
      rw [List.mem_ofFn] at hy
      obtain ⟨i, rfl⟩ := hy
      exact .char _ _ (by decide) (by decide) (by decide) (hpiece _)

/-- Gaussian integers: both cases occur. -/
example (z : ℤ × ℤ) : NumReads intIO z.1 z.1 ∧ NumReads intIO z.2 z.2 ∧ ((0, 1) : ℤ × ℤ).2 ≠ 0 ∧ ((1, 0) : ℤ × ℤ).2 = 0 :=
  ⟨intIO_reads _, intIO_reads _, by decide, rfl⟩

/-! ## C68 -/

/-- C68: reading a printed quaternion gives the rotation by the angle and about the axis that the scalars' own text gives. -/
theorem C68_text (io : NumIO ℝ) (dflt : ℝ) {l : QLayout} (q : Quat ℝ l) (a : ℝ) (u : Fin 3 → ℝ) (ha : NumReads io (rad2Deg q.angle) a)
    (hu : ∀ i, NumReads io (q.axis i) (u i)) (rest : List Char) :
    parseQuat io dflt l ⟨printQuat io dflt q ++ rest, true⟩ = .ok (rotationQuatAxisAngle l u (deg2Rad a), ⟨rest, true⟩) := by
  have hvec := C65_nested (numElem io) dflt q.axis u fun i => C65_scalars io _ _ (hu i)
  have hax : Balanced (printArray (numElem io) q.axis) := hvec.1.balanced
  have hax' : Piece '@' (printArray (numElem io) q.axis) := by
    have : printArray (numElem io) q.axis = '[' :: (printElems (numElem io) (List.ofFn q.axis) ++ ']' :: []) := by rw [printArray]; simp
    rw [this]
    refine .nest _ _ ?_ .nil
    rw [List.ofFn_succ, printElems_eq]
    refine joinSep_balanced _ (by decide) (by decide) _ ?_
    intro p hp
    rw [List.mem_cons] at hp
    rcases hp with rfl | hp
    · exact (C65_scalars io _ _ (hu 0)).1
    · rw [List.mem_map] at hp
      obtain ⟨y, hy, rfl⟩ := hp
      rw [List.mem_ofFn] at hy
      obtain ⟨i, rfl⟩ := hy
      exact .char _ _ (by decide) (by decide) (by decide) (C65_scalars io _ _ (hu _)).1
  have he0 : Piece '@' (io.put (rad2Deg q.angle) ++ [' ', 'd', 'e', 'g', ' ']) := by
    refine Piece.append (Piece.of_chars _ fun c hc => ?_) (Piece.of_chars _ (by decide))
    have := ha.2.1 c hc
    exact ⟨this.1, this.2.1, this.2.2.2.1⟩
  have he1 : Piece '@' (' ' :: printArray (numElem io) q.axis) := .char _ _ (by decide) (by decide) (by decide) hax'
  have hps : ∀ p ∈ [io.put (rad2Deg q.angle) ++ [' ', 'd', 'e', 'g', ' '], ' ' :: printArray (numElem io) q.axis], Piece '@' p := by
    intro p hp
    simp only [List.mem_cons, List.not_mem_nil, or_false] at hp
    rcases hp with rfl | rfl
    · exact he0
    · exact he1
  have htext : printQuat io dflt q ++ rest = '[' :: (joinSep '@' [io.put (rad2Deg q.angle) ++ [' ', 'd', 'e', 'g', ' '], ' ' :: printArray (numElem io) q.axis] ++ ']' :: rest) := by
    simp [printQuat, joinSep, vecElem]
  rw [parseQuat, htext, readArray_bracketed (joinSep_balanced '@' (by decide) (by decide) _ hps)]
  simp only [innerText_bracketed, splitArray_join '@' (by decide) (by decide) _ (by simp) hps]
  have hex := extract_reads io _ _ dflt ha [] [' ', 'd', 'e', 'g', ' '] (by intro c hc; simp at hc) (by intro c hc; simp at hc; exact Or.inl hc.symm)
  rw [List.nil_append] at hex
  obtain ⟨st, hst⟩ := hvec.2 [' '] (by intro c hc; rw [List.mem_singleton] at hc; rw [hc]; decide) (fun _ => dflt)
  rw [List.singleton_append] at hst
  simp only [hex]
  change (match (vecElem (numElem io) dflt 3).parse (fun _ => dflt) ⟨' ' :: (vecElem (numElem io) dflt 3).print q.axis, true⟩ with
    | .error x => _
    | .ok (axis, _) => _) = _
  rw [hst]
  simp only [rotationQuatAxisAngle]
  congr 3
  funext i
  ring

/-- C68: when angle and axis survive being printed, a unit quaternion is read back exactly, for both storage layouts. -/
theorem C68_round_trip (io : NumIO ℝ) (dflt : ℝ) {l : QLayout} (q : Quat ℝ l) (hq : q.qLength = 1) (ha : NumReads io (rad2Deg q.angle) (rad2Deg q.angle))
    (hu : ∀ i, NumReads io (q.axis i) (q.axis i)) (rest : List Char) :
    parseQuat io dflt l ⟨printQuat io dflt q ++ rest, true⟩ = .ok (q, ⟨rest, true⟩) := by
  rw [C68_text io dflt q _ _ ha hu]
  have : deg2Rad (rad2Deg q.angle) = q.angle := by
    rw [deg2Rad, rad2Deg]
    have := Real.pi_ne_zero
    field_simp
  rw [this, (C50_reconstruct q hq).1]

/-- C68: unlike for vectors and matrices, whitespace before a quaternion is rejected. -/
theorem C68_leading_space_rejected (io : NumIO ℝ) (dflt : ℝ) (l : QLayout) (c : Char) (hc : Blank c) (s : List Char) :
    parseQuat io dflt l ⟨c :: s, true⟩ = .error .invalidArgument := by
  have h1 : c ≠ '[' := by rintro rfl; exact absurd hc (by decide)
  have h2 : c ≠ ']' := by rintro rfl; exact absurd hc (by decide)
  have : readArray ⟨c :: s, true⟩ = .ok ([c], ⟨s, true⟩) := by
    rw [readArray]
    simp [readArrayGo, depthAfter, h1, h2]
  rw [parseQuat, this]
  rfl

/-- C68: an angle directly followed by the separator is rejected, because the end of its text leaves the string stream in a failed state. -/
theorem C68_no_space_rejected (io : NumIO ℝ) (dflt : ℝ) (l : QLayout) (x a : ℝ) (ha : NumReads io x a) (t rest : List Char) (ht : Piece '@' t) :
    parseQuat io dflt l ⟨'[' :: (io.put x ++ '@' :: t ++ ']' :: rest), true⟩ = .error .runtimeError := by
  have he0 : Piece '@' (io.put x) := by
    refine Piece.of_chars _ fun c hc => ?_
    have := ha.2.1 c hc
    exact ⟨this.1, this.2.1, this.2.2.2.1⟩
  have hps : ∀ p ∈ [io.put x, t], Piece '@' p := by
    intro p hp
    simp only [List.mem_cons, List.not_mem_nil, or_false] at hp
    rcases hp with rfl | rfl
    · exact he0
    · exact ht
  have hj : io.put x ++ '@' :: t = joinSep '@' [io.put x, t] := rfl
  rw [parseQuat, hj, readArray_bracketed (joinSep_balanced '@' (by decide) (by decide) _ hps)]
  simp only [innerText_bracketed, splitArray_join '@' (by decide) (by decide) _ (by simp) hps]
  have hex := extract_reads io _ _ dflt ha [] [] (by intro c hc; simp at hc) (by simp)
  rw [List.nil_append, List.append_nil] at hex
  simp only [hex]
  rfl

/-- C68: a missing angle is rejected. -/
theorem C68_missing_angle_rejected (io : NumIO ℝ) (dflt : ℝ) (l : QLayout) (ws : List Char) (hws : IsWs ws) (t rest : List Char) (ht : Piece '@' t) :
    parseQuat io dflt l ⟨'[' :: (ws ++ '@' :: t ++ ']' :: rest), true⟩ = .error .runtimeError := by
  have hps : ∀ p ∈ [ws, t], Piece '@' p := by
    intro p hp
    simp only [List.mem_cons, List.not_mem_nil, or_false] at hp
    rcases hp with rfl | rfl
    · refine Piece.of_chars _ fun c hc => ⟨?_, ?_, ?_⟩ <;> rintro rfl <;> exact absurd (hws _ hc) (by decide)
    · exact ht
  have hj : ws ++ '@' :: t = joinSep '@' [ws, t] := rfl
  rw [parseQuat, hj, readArray_bracketed (joinSep_balanced '@' (by decide) (by decide) _ hps)]
  simp only [innerText_bracketed, splitArray_join '@' (by decide) (by decide) _ (by simp) hps]
  simp only [extract_blank io dflt ws hws]
  rfl

/-- A format for which integral angles and axes survive. -/
noncomputable def realIntIO : NumIO ℝ where
  put x := intIO.put ⌊x⌋
  get s := ((intIO.get s).1, (intIO.get s).2)

/-- The half turn about the first axis meets the hypotheses. -/
example : (rotationQuatAxisAngle .scalarFirst ![1, 0, 0] Real.pi).qLength = 1 ∧
    NumReads realIntIO (rad2Deg (rotationQuatAxisAngle .scalarFirst ![1, 0, 0] Real.pi).angle) (rad2Deg (rotationQuatAxisAngle .scalarFirst ![1, 0, 0] Real.pi).angle) ∧
    ∀ i, NumReads realIntIO ((rotationQuatAxisAngle .scalarFirst ![1, 0, 0] Real.pi).axis i) ((rotationQuatAxisAngle .scalarFirst ![1, 0, 0] Real.pi).axis i) := by
  have hr : ∀ n : ℤ, NumReads realIntIO (n : ℝ) (n : ℝ) := by
    intro n
    obtain ⟨h1, h2, h3⟩ := intIO_reads n
    refine ⟨by simpa [realIntIO] using h1, by simpa [realIntIO] using h2, fun rest hrest => ?_⟩
    simp [realIntIO, h3 rest hrest]
  have hlen : length (![1, 0, 0] : Fin 3 → ℝ) = 1 := by
    rw [Quat.length_fin3, Real.sqrt_eq_one]
    simp
  obtain ⟨ha, hx⟩ := C50_axis_angle (l := .scalarFirst) ![1, 0, 0] hlen Real.pi Real.pi_pos (by linarith [Real.pi_pos])
  refine ⟨?_, ?_, ?_⟩
  · obtain ⟨q, m, hq, -, h1, -⟩ := C52_axis_angle .scalarFirst .follow .linear ![1, 0, 0] hlen Real.pi 0
    rw [rotationAxisAngleQ, if_pos (by rw [hlen]; norm_num), Option.some_inj] at hq
    rw [hq]; exact h1
  · rw [ha]
    have : rad2Deg Real.pi = ((180 : ℤ) : ℝ) := by
      rw [rad2Deg, div_self Real.pi_ne_zero]; norm_num
    rw [this]; exact hr 180
  · rw [hx]
    intro i
    fin_cases i
    · have := hr 1; simpa using this
    · have := hr 0; simpa using this
    · have := hr 0; simpa [Matrix.vecHead, Matrix.vecTail] using this

end Mathter.Props
