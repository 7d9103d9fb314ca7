import Verif.Model.Quaternion

/-!
# Model of `IoStream.hpp`

Texts are lists of characters. Simplifications: the character type is `char`; nesting depths (`size_t`) and positions (`auto prev = 0`, an
`int`) are unbounded, which differs only for texts of more than 2³¹ characters; `std::isspace` is that of the "C" locale and characters
outside ASCII are not considered; the vectors and matrices that are printed and read are element functions, the conversions from and to
packed storage being those proved in C02 and C21.
-/

namespace Mathter

/-- The exceptions thrown by IoStream.hpp. (IoStream.hpp:28, 46, 146, 153, 226.) -/
inductive Exc where
  | runtimeError
  | invalidArgument
  deriving DecidableEq, Repr

/-- An input stream: the remaining characters and `good()` (neither eofbit nor failbit is set). Models what IoStream.hpp uses of
`std::basic_istream`. (the argument `is` of IoStream.hpp:23, 39, 129.) -/
structure IStream where
  chars : List Char
  good : Bool := true
  deriving DecidableEq

/-- `std::isspace` in the "C" locale. (used in IoStream.hpp:31, 34.) -/
def isSpace (c : Char) : Bool :=
  c == ' ' || c == '\t' || c == '\n' || c == '\r' || c == Char.ofNat 11 || c == Char.ofNat 12

/-- The loop of `ReadWhileSpace` once the stream is good — IoStream.hpp:26-34. `none` is the character `char(EOF)`, for which `peek` sets
eofbit. -/
def skipSpace : List Char → Option Char × IStream
  | [] => (none, ⟨[], false⟩)
  | c :: cs => if isSpace c then skipSpace cs else (some c, ⟨c :: cs, true⟩)

/-- `ReadWhileSpace` — IoStream.hpp:23-36. -/
def readWhileSpace (s : IStream) : Except Exc (Option Char × IStream) :=
  if s.good then .ok (skipSpace s.chars) else .error .runtimeError

/-- The change of the nesting depth by a character — IoStream.hpp:48-53. -/
def depthAfter (d : ℤ) (c : Char) : ℤ := if c = '[' then d + 1 else if c = ']' then d - 1 else d

/-- The loop of `ReadArray` — IoStream.hpp:43-55; `none` when the stream ends. -/
def readArrayGo : ℤ → List Char → Option (List Char × List Char)
  | _, [] => none
  | d, c :: cs =>
    let d' := depthAfter d c
    if d' = 0 then some ([c], cs) else (readArrayGo d' cs).map fun p => (c :: p.1, p.2)

/-- `ReadArray` — IoStream.hpp:39-57. -/
def readArray (s : IStream) : Except Exc (List Char × IStream) :=
  if s.good then
    match readArrayGo 0 s.chars with
    | none => .error .invalidArgument
    | some (str, rest) => .ok (str, ⟨rest, true⟩)
  else .error .invalidArgument

/-- The loop of `SplitArray` — IoStream.hpp:65-77; `cur` is the text from `prev` to `i`. -/
def splitGo (sep : Char) : ℤ → List Char → List Char → List (List Char)
  | _, cur, [] => [cur]
  | d, cur, c :: cs =>
    if c = '[' then splitGo sep (d + 1) (cur ++ [c]) cs
    else if c = ']' then splitGo sep (d - 1) (cur ++ [c]) cs
    else if d = 0 ∧ c = sep then cur :: splitGo sep d [] cs
    else splitGo sep d (cur ++ [c]) cs

/-- `SplitArray` — IoStream.hpp:60-79. -/
def splitArray (str : List Char) (sep : Char) : List (List Char) := splitGo sep 0 [] str

/-- `str.substr(1, str.size() - 2)` — IoStream.hpp:151, 224. (For a single character the count wraps around, and the result is empty.) -/
def innerText (str : List Char) : List Char := (str.drop 1).take (str.length - 2)

/-- The text format of a scalar type: `os << x`, and what `is >> x` does with a good stream after the whitespace: value, remaining text,
success. Models `std::ostream` and `std::num_get`, which are not part of the library. (used in IoStream.hpp:82-126.) -/
structure NumIO (α : Type*) where
  put : α → List Char
  get : List Char → α × List Char × Bool

variable {α : Type*}

/-- `is >> x` for a scalar: a stream that is not good, or ends after whitespace, leaves the value unchanged; eofbit is set when the end has
been reached. (used in IoStream.hpp:106-126.) -/
def NumIO.extract (io : NumIO α) (old : α) (s : IStream) : α × IStream :=
  if s.good then
    let cs := s.chars.dropWhile isSpace
    if cs = [] then (old, ⟨[], false⟩)
    else
      let r := io.get cs
      (r.1, ⟨r.2.1, r.2.2 && !r.2.1.isEmpty⟩)
  else (old, s)

/-- `PrintElement` and `ParseElement` of an element type — IoStream.hpp:82-126. `parse` gets the old value of the element. -/
structure Elem (α : Type*) where
  print : α → List Char
  parse : α → IStream → Except Exc (α × IStream)

/-- Integral and floating point elements — IoStream.hpp:85-90, 106-111. -/
def numElem (io : NumIO α) : Elem α where
  print := io.put
  parse old s := .ok (io.extract old s)

/-- `PrintElement` for a complex number — IoStream.hpp:91-96. -/
def printComplex [Zero α] [DecidableEq α] (io : NumIO α) (z : α × α) : List Char :=
  io.put z.1 ++ if z.2 ≠ 0 then [' ', '+', ' '] ++ io.put z.2 ++ ['j'] else []

/-- `ParseElement` for a complex number — IoStream.hpp:112-122. -/
def parseComplex [Zero α] (io : NumIO α) (s : IStream) : Except Exc ((α × α) × IStream) :=
  let r := io.extract 0 s
  match readWhileSpace r.2 with
  | .error e => .error e
  | .ok (next, s') =>
    if next = some '+' then
      let q := io.extract 0 ⟨s'.chars.drop 1, s'.good⟩
      .ok ((r.1, q.1), q.2)
    else .ok ((r.1, 0), s')

/-- Complex elements — IoStream.hpp:91-96, 112-122. -/
def complexElem [Zero α] [DecidableEq α] (io : NumIO α) : Elem (α × α) where
  print := printComplex io
  parse _ s := parseComplex io s

/-- The elements printed by `PrintArray` — IoStream.hpp:133-136. -/
def printElems (e : Elem α) : List α → List Char
  | [] => []
  | [x] => e.print x
  | x :: y :: t => e.print x ++ [',', ' '] ++ printElems e (y :: t)

/-- `PrintArray` — IoStream.hpp:129-138. -/
def printArray (e : Elem α) {n : ℕ} (v : Fin n → α) : List Char := ['['] ++ printElems e (List.ofFn v) ++ [']']

/-- The loop of `ParseArray` over the elements — IoStream.hpp:155-159. -/
def parseElems (e : Elem α) : List α → List (List Char) → Except Exc (List α)
  | o :: os, t :: ts =>
    match e.parse o ⟨t, true⟩ with
    | .error x => .error x
    | .ok r =>
      match parseElems e os ts with
      | .error x => .error x
      | .ok rs => .ok (r.1 :: rs)
  | _, _ => .ok []

/-- `ParseArray` — IoStream.hpp:141-160. -/
def parseArray (e : Elem α) {n : ℕ} (old : Fin n → α) (s : IStream) : Except Exc ((Fin n → α) × IStream) :=
  match readWhileSpace s with
  | .error x => .error x
  | .ok (next, s1) =>
    if next ≠ some '[' then .error .invalidArgument
    else
      match readArray s1 with
      | .error x => .error x
      | .ok (str, s2) =>
        let elements := splitArray (innerText str) ','
        if elements.length ≠ n then .error .invalidArgument
        else
          match parseElems e (List.ofFn old) elements with
          | .error x => .error x
          | .ok vs => .ok (fun i => vs.getD i (old i), s2)

/-- `operator<<` and `operator>>` of a vector — IoStream.hpp:165-171, 198-205. `dflt` is the content of the default-constructed vector. -/
def vecElem (e : Elem α) (dflt : α) (n : ℕ) : Elem (Fin n → α) where
  print v := printArray e v
  parse _ s := parseArray e (fun _ => dflt) s

/-- `operator<<` of a matrix — IoStream.hpp:174-183. -/
def printMatrix (e : Elem α) (dflt : α) {r c : ℕ} (m : Fin r → Fin c → α) : List Char := printArray (vecElem e dflt c) m

/-- `operator>>` of a matrix — IoStream.hpp:208-217. -/
def parseMatrix (e : Elem α) (dflt : α) (r c : ℕ) (s : IStream) : Except Exc ((Fin r → Fin c → α) × IStream) :=
  parseArray (vecElem e dflt c) (fun _ _ => dflt) s

/-- `Rad2Deg` — Utility.hpp:36-42. -/
noncomputable def rad2Deg (rad : ℝ) : ℝ := rad / Real.pi * 180

/-- `Deg2Rad` — Utility.hpp:44-50. -/
noncomputable def deg2Rad (deg : ℝ) : ℝ := deg / 180 * Real.pi

/-- `operator<<` of a quaternion — IoStream.hpp:186-195. -/
noncomputable def printQuat (io : NumIO ℝ) (dflt : ℝ) {l : QLayout} (q : Quat ℝ l) : List Char :=
  ['['] ++ io.put (rad2Deg q.angle) ++ [' ', 'd', 'e', 'g'] ++ [' ', '@', ' '] ++ (vecElem (numElem io) dflt 3).print q.axis ++ [']']

/-- `operator>>` of a quaternion — IoStream.hpp:220-239: the string stream `ss` keeps its state when its text is replaced. `dflt` is the
indeterminate initial value of `angle` and `axis`. -/
noncomputable def parseQuat (io : NumIO ℝ) (dflt : ℝ) (l : QLayout) (s : IStream) : Except Exc (Quat ℝ l × IStream) :=
  match readArray s with
  | .error x => .error x
  | .ok (str, s1) =>
    match splitArray (innerText str) '@' with
    | [e0, e1] =>
      let r := io.extract dflt ⟨e0, true⟩
      match (vecElem (numElem io) dflt 3).parse (fun _ => dflt) ⟨e1, r.2.good⟩ with
      | .error x => .error x
      | .ok (axis, _) =>
        let theta := deg2Rad r.1 / 2
        .ok (Quat.ofParts l (Real.cos theta) fun i => axis i * Real.sin theta, s1)
    | _ => .error .invalidArgument

end Mathter
