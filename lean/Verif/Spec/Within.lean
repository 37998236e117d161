import Verif.Json

/-! Specification: the nodes inside a value and the dictionaries around them. Only the data type of values is used. -/

namespace Gherkin

/-- `node` occurs in `root`, and `encl` is the innermost dictionary around it (`par` if there is none inside `root`). -/
inductive Within : Option J → J → J → Option J → Prop
  | self {par j} : Within par j j par
  | value {par l k v node encl} : (k, v) ∈ l → Within (some (.dict l)) v node encl → Within par (.dict l) node encl
  | item {par l v node encl} : v ∈ l → Within par v node encl → Within par (.list l) node encl

/-- A dictionary whose `id` is `i`. -/
def J.IsNode (i : Nat) (j : J) : Prop := j.get? py"id" = some (.id i)

end Gherkin
