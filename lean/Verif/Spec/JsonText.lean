import Verif.Spec.Unescape
import Verif.Json

/-! Specification: JSON texts (RFC 8259, without numbers, `true` and `false`; not part of /repo). -/

namespace Gherkin.JsonText

/-- JSON values. -/
inductive Value
  | null | str (s : Str) | list (vs : List Value) | obj (items : List (Str × Value))

/-- The escapes of one character. -/
def escapes : List (Char × Char) :=
  [('"', '"'), ('\\', '\\'), ('/', '/'), ('b', Char.ofNat 8), ('f', Char.ofNat 12), ('n', '\n'), ('r', '\r'), ('t', '\t')]

/-- `Chars s v`: between quotes, the characters `s` stand for the text `v`. A character beyond the basic plane may be written as a surrogate
pair. -/
inductive Chars : Str → Str → Prop
  | nil : Chars [] []
  | plain {c s v} : c ≠ '"' → c ≠ '\\' → 32 ≤ c.toNat → Chars s v → Chars (c :: s) (c :: v)
  | escape {e c s v} : (e, c) ∈ escapes → Chars s v → Chars ('\\' :: e :: s) (c :: v)
  | unit {ds c s v} : ds.length = 4 → Escape.hexNum ds = some c.toNat → Chars s v → Chars ('\\' :: 'u' :: (ds ++ s)) (c :: v)
  | pair {ds es hi lo c s v} : ds.length = 4 → es.length = 4 → Escape.hexNum ds = some (0xd800 + hi) → Escape.hexNum es = some (0xdc00 + lo) →
      hi < 0x400 → lo < 0x400 → c.toNat = 0x10000 + hi * 0x400 + lo → Chars s v →
      Chars ('\\' :: 'u' :: (ds ++ '\\' :: 'u' :: (es ++ s))) (c :: v)

/-- White space between the parts. -/
def Gap (w : Str) : Prop := ∀ c ∈ w, c = ' ' ∨ c = '\t' ∨ c = '\n' ∨ c = '\r'

mutual
/-- `Text s v`: `s` is a JSON text for the value `v`. -/
inductive Text : Str → Value → Prop
  | null : Text py"null" .null
  | str {b s} : Chars b s → Text ('"' :: (b ++ ['"'])) (.str s)
  | noItems {w} : Gap w → Text ('[' :: (w ++ [']'])) (.list [])
  | list {s vs} : Items s vs → Text ('[' :: (s ++ [']'])) (.list vs)
  | noMembers {w} : Gap w → Text ('{' :: (w ++ ['}'])) (.obj [])
  | obj {s ms} : Members s ms → Text ('{' :: (s ++ ['}'])) (.obj ms)
/-- The items of an array. -/
inductive Items : Str → List Value → Prop
  | one {w s w' v} : Gap w → Text s v → Gap w' → Items (w ++ (s ++ w')) [v]
  | more {w s w' v t vs} : Gap w → Text s v → Gap w' → Items t vs → Items (w ++ (s ++ (w' ++ ',' :: t))) (v :: vs)
/-- The members of an object. -/
inductive Members : Str → List (Str × Value) → Prop
  | one {m k v} : Member m k v → Members m [(k, v)]
  | more {m k v t ms} : Member m k v → Members t ms → Members (m ++ ',' :: t) ((k, v) :: ms)
/-- A member of an object: name, colon, value. -/
inductive Member : Str → Str → Value → Prop
  | mk {a b k b' c s v d} : Gap a → Chars b k → Gap b' → Gap c → Text s v → Gap d →
      Member (a ++ '"' :: (b ++ '"' :: (b' ++ ':' :: (c ++ (s ++ d))))) k v
end

end Gherkin.JsonText

namespace Gherkin

open JsonText

mutual
/-- The JSON value of a Python value; none if there is a `Location` in it. -/
def J.value : J → Option Value
  | .str s => some (.str s)
  | .id n => some (.str (natStr n))
  | .loc _ => none
  | .null => some .null
  | .list l => (valueItems l).map .list
  | .dict l => (valuePairs l).map .obj
def J.valueItems : List J → Option (List Value)
  | [] => some []
  | j :: js => match J.value j, J.valueItems js with
    | some v, some vs => some (v :: vs)
    | _, _ => none
def J.valuePairs : List (Str × J) → Option (List (Str × Value))
  | [] => some []
  | p :: ps => match J.valuePair p, J.valuePairs ps with
    | some v, some vs => some (v :: vs)
    | _, _ => none
def J.valuePair : Str × J → Option (Str × Value)
  | (k, v) => (J.value v).map (k, ·)
end

end Gherkin
