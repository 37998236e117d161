import Verif.Spec.Within
import Verif.Spec.Doc

/-! `find_ast_node_id` finds the unique node. -/

namespace Gherkin

namespace J

/-- The id of a node itself. -/
def ownId (j : J) : List Nat := match j.get? py"id" with | some (.id n) => [n] | _ => []

mutual
/-- All ids of dictionaries in a value, in reading order. -/
def ids : J → List Nat
  | .dict l => ownId (.dict l) ++ idsValues l
  | .list l => idsItems l
  | _ => []
def idsItems : List J → List Nat
  | [] => []
  | v :: vs => ids v ++ idsItems vs
def idsValues : List (Str × J) → List Nat
  | [] => []
  | v :: vs => idsPair v ++ idsValues vs
def idsPair : Str × J → List Nat
  | (_, v) => ids v
end

theorem hasId_iff {i : Nat} {j : J} : hasId i j = true ↔ i ∈ ownId j := by
  unfold hasId ownId
  rcases get? py"id" j with _ | (_ | n | _ | _ | _ | _) <;> simp
  exact eq_comm

theorem isNode_iff {i : Nat} {j : J} : IsNode i j ↔ hasId i j = true := by
  unfold hasId IsNode
  split
  · rename_i n h; rw [h]; simp
  · rename_i h
    constructor
    · intro hc; exact absurd hc (h i)
    · intro hc; cases hc

theorem isNode_dict {i : Nat} {j : J} (h : IsNode i j) : ∃ l, j = .dict l := by
  cases j <;> simp [IsNode, get?] at h ⊢

mutual
theorem find_none (i : Nat) (p : Option J) : ∀ j : J, find i p j = none ↔ i ∉ ids j
  | .dict l => by
    rw [find, ids]
    by_cases h : hasId i (.dict l) = true
    · rw [if_pos h]; simp [hasId_iff.1 h]
    · rw [if_neg h, findValues_none i _ l]
      rw [hasId_iff] at h
      simp [h]
  | .list l => by rw [find, ids]; exact findItems_none i p l
  | .str _ => by simp [find, ids]
  | .id _ => by simp [find, ids]
  | .loc _ => by simp [find, ids]
  | .null => by simp [find, ids]
theorem findItems_none (i : Nat) (p : Option J) : ∀ l : List J, findItems i p l = none ↔ i ∉ idsItems l
  | [] => by simp [findItems, idsItems]
  | v :: vs => by
    have h1 := find_none i p v
    have h2 := findItems_none i p vs
    rw [findItems, idsItems]
    cases h : find i p v with
    | some r =>
      rw [h] at h1
      simp only [reduceCtorEq, false_iff] at h1 ⊢
      simp only [List.mem_append]
      exact fun h => h1 fun h' => h (.inl h')
    | none => rw [h] at h1; simp only [true_iff] at h1; simp [h2, h1]
theorem findValues_none (i : Nat) (p : Option J) : ∀ l : List (Str × J), findValues i p l = none ↔ i ∉ idsValues l
  | [] => by simp [findValues, idsValues]
  | v :: vs => by
    have h1 := findPair_none i p v
    have h2 := findValues_none i p vs
    rw [findValues, idsValues]
    cases h : findPair i p v with
    | some r =>
      rw [h] at h1
      simp only [reduceCtorEq, false_iff] at h1 ⊢
      simp only [List.mem_append]
      exact fun h => h1 fun h' => h (.inl h')
    | none => rw [h] at h1; simp only [true_iff] at h1; simp [h2, h1]
theorem findPair_none (i : Nat) (p : Option J) : ∀ v : Str × J, findPair i p v = none ↔ i ∉ idsPair v
  | (_, v) => find_none i p v
end

mutual
theorem find_sound (i : Nat) (p : Option J) : ∀ (j : J) {n : J} {e : Option J}, find i p j = some (n, e) → Within p j n e ∧ IsNode i n
  | .dict l, n, e, h => by
    rw [find] at h
    by_cases hi : hasId i (.dict l) = true
    · rw [if_pos hi] at h
      simp only [Option.some.injEq, Prod.mk.injEq] at h
      obtain ⟨rfl, rfl⟩ := h
      exact ⟨.self, isNode_iff.2 hi⟩
    · rw [if_neg hi] at h
      obtain ⟨k, v, hv, hw, hn⟩ := findValues_sound i _ l h
      exact ⟨.value hv hw, hn⟩
  | .list l, n, e, h => by
    rw [find] at h
    obtain ⟨v, hv, hw, hn⟩ := findItems_sound i p l h
    exact ⟨.item hv hw, hn⟩
  | .str _, _, _, h => by simp [find] at h
  | .id _, _, _, h => by simp [find] at h
  | .loc _, _, _, h => by simp [find] at h
  | .null, _, _, h => by simp [find] at h
theorem findItems_sound (i : Nat) (p : Option J) : ∀ (l : List J) {n : J} {e : Option J}, findItems i p l = some (n, e) →
    ∃ v ∈ l, Within p v n e ∧ IsNode i n
  | [], _, _, h => by simp [findItems] at h
  | v :: vs, n, e, h => by
    rw [findItems] at h
    cases hv : find i p v with
    | some r =>
      rw [hv] at h; simp only [Option.some.injEq] at h; subst h
      exact ⟨v, by simp, find_sound i p v hv⟩
    | none =>
      rw [hv] at h
      obtain ⟨w, hw, h'⟩ := findItems_sound i p vs h
      exact ⟨w, by simp [hw], h'⟩
theorem findValues_sound (i : Nat) (p : Option J) : ∀ (l : List (Str × J)) {n : J} {e : Option J}, findValues i p l = some (n, e) →
    ∃ k v, (k, v) ∈ l ∧ Within p v n e ∧ IsNode i n
  | [], _, _, h => by simp [findValues] at h
  | v :: vs, n, e, h => by
    rw [findValues] at h
    cases hv : findPair i p v with
    | some r =>
      rw [hv] at h; simp only [Option.some.injEq] at h; subst h
      exact ⟨v.1, v.2, by simp, findPair_sound i p v hv⟩
    | none =>
      rw [hv] at h
      obtain ⟨k, w, hw, h'⟩ := findValues_sound i p vs h
      exact ⟨k, w, by simp [hw], h'⟩
theorem findPair_sound (i : Nat) (p : Option J) : ∀ (v : Str × J) {n : J} {e : Option J}, findPair i p v = some (n, e) →
    Within p v.2 n e ∧ IsNode i n
  | (_, v), _, _, h => find_sound i p v h
end

theorem idsItems_eq (l : List J) : idsItems l = l.flatMap ids := by
  induction l with
  | nil => rfl
  | cons v vs ih => rw [idsItems, ih]; rfl

theorem idsValues_eq (l : List (Str × J)) : idsValues l = l.flatMap fun v => ids v.2 := by
  induction l with
  | nil => rfl
  | cons v vs ih => obtain ⟨k, v⟩ := v; rw [idsValues, ih]; rfl

theorem within_ids {p : Option J} {j n : J} {e : Option J} (h : Within p j n e) {i : Nat} (hn : IsNode i n) : i ∈ ids j := by
  induction h with
  | self =>
    obtain ⟨l, rfl⟩ := isNode_dict hn
    rw [ids, List.mem_append]; exact .inl (hasId_iff.1 (isNode_iff.1 hn))
  | value hv _ ih =>
    rw [ids, List.mem_append, idsValues_eq, List.mem_flatMap]
    exact .inr ⟨_, hv, ih hn⟩
  | item hv _ ih =>
    rw [ids, idsItems_eq, List.mem_flatMap]
    exact ⟨_, hv, ih hn⟩

theorem nodup_flatMap_mem {α : Type} {f : α → List Nat} {l : List α} (h : (l.flatMap f).Nodup) {a : α} (ha : a ∈ l) : (f a).Nodup := by
  obtain ⟨l1, l2, rfl⟩ := List.append_of_mem ha
  rw [List.flatMap_append, List.flatMap_cons, List.nodup_append, List.nodup_append] at h
  exact h.2.1.1

theorem findItems_unique {i : Nat} {p : Option J} {v : J} {r : J × Option J} : ∀ {l : List J}, v ∈ l → (idsItems l).Nodup → i ∈ ids v →
    find i p v = some r → findItems i p l = some r
  | [], h, _, _, _ => by simp at h
  | w :: ws, h, hn, hi, hf => by
    rw [idsItems, List.nodup_append] at hn
    rw [findItems]
    by_cases hw : v = w
    · subst hw; rw [hf]
    · have hm : v ∈ ws := by simpa [hw] using h
      have : find i p w = none := (find_none i p w).2 fun h' =>
        hn.2.2 i h' i (by rw [idsItems_eq, List.mem_flatMap]; exact ⟨v, hm, hi⟩) rfl
      rw [this]
      exact findItems_unique hm hn.2.1 hi hf

theorem findValues_unique {i : Nat} {p : Option J} {k : Str} {v : J} {r : J × Option J} : ∀ {l : List (Str × J)}, (k, v) ∈ l →
    (idsValues l).Nodup → i ∈ ids v → find i p v = some r → findValues i p l = some r
  | [], h, _, _, _ => by simp at h
  | (k', w) :: ws, h, hn, hi, hf => by
    rw [idsValues, List.nodup_append] at hn
    rw [findValues]
    by_cases hw : (k, v) = (k', w)
    · simp only [Prod.mk.injEq] at hw
      obtain ⟨rfl, rfl⟩ := hw
      rw [findPair, hf]
    · have hm : (k, v) ∈ ws := by simpa [hw] using h
      have : findPair i p (k', w) = none := (findPair_none i p (k', w)).2 fun h' =>
        hn.2.2 i h' i (by rw [idsValues_eq, List.mem_flatMap]; exact ⟨_, hm, hi⟩) rfl
      rw [this]
      exact findValues_unique hm hn.2.1 hi hf

/-- With distinct ids the search returns the node itself and its enclosing dictionary. -/
theorem find_complete {p : Option J} {j n : J} {e : Option J} (h : Within p j n e) {i : Nat} (hn : IsNode i n) (hd : (ids j).Nodup) :
    find i p j = some (n, e) := by
  induction h with
  | self =>
    obtain ⟨l, rfl⟩ := isNode_dict hn
    rw [find, if_pos (isNode_iff.1 hn)]
  | @value par l k v node encl hv hw ih =>
    rw [ids, List.nodup_append] at hd
    have hi : i ∈ ids v := within_ids hw hn
    have hsub : (ids v).Nodup := by
      rw [idsValues_eq] at hd
      exact nodup_flatMap_mem (f := fun v : Str × J => ids v.2) hd.2.1 hv
    rw [find, if_neg]
    · exact findValues_unique hv hd.2.1 hi (ih hn hsub)
    · rw [hasId_iff]
      intro h'
      exact hd.2.2 i h' i (by rw [idsValues_eq, List.mem_flatMap]; exact ⟨_, hv, hi⟩) rfl
  | @item par l v node encl hv hw ih =>
    rw [ids] at hd
    have hi : i ∈ ids v := within_ids hw hn
    have hsub : (ids v).Nodup := by
      rw [idsItems_eq] at hd
      exact nodup_flatMap_mem hd hv
    rw [find]
    exact findItems_unique hv hd hi (ih hn hsub)

theorem ids_map {α : Type} (f : α → J) (l : List α) : ids (.list (l.map f)) = l.flatMap fun a => ids (f a) := by
  rw [ids, idsItems_eq, List.flatMap_map]

theorem ids_reject (l : List (Str × Option J)) : ids (.rejectNones l) = ownId (.rejectNones l) ++ l.flatMap fun v => v.2.elim [] ids := by
  rw [rejectNones, ids, idsValues_eq]
  congr 1
  induction l with
  | nil => rfl
  | cons v vs ih =>
    obtain ⟨k, v⟩ := v
    cases v <;> simp [ih]

theorem ownId_reject_id (n : Nat) (l : List (Str × Option J)) : ownId (.rejectNones ((py"id", some (.id n)) :: l)) = [n] := by
  simp [ownId, rejectNones, get?]

theorem get?_reject {key : Str} : ∀ {l : List (Str × Option J)}, (l.map (·.1)).Nodup → get? key (.rejectNones l) = (l.lookup key).getD none
  | [], _ => rfl
  | (k, v) :: l, h => by
    rw [List.map_cons, List.nodup_cons] at h
    have ih := get?_reject (key := key) h.2
    simp only [rejectNones, get?] at ih ⊢
    by_cases hk : key = k
    · subst hk
      cases v with
      | some v => simp
      | none =>
        simp only [List.filterMap_cons, Option.map_none, ih, List.lookup_cons, beq_self_eq_true, Option.getD_some]
        cases hl : l.lookup key with
        | none => rfl
        | some x =>
          exfalso; apply h.1
          obtain ⟨l1, l2, he, _⟩ := List.lookup_eq_some_iff.1 hl
          rw [he]; simp
    · have hb : (key == k) = false := by simp [hk]
      cases v with
      | some v => simp only [List.filterMap_cons, Option.map_some, List.lookup_cons, hb, ih]
      | none => simp only [List.filterMap_cons, Option.map_none, ih, List.lookup_cons, hb]

end J

open J

@[simp] theorem ids_str (s : Str) : ids (.str s) = [] := rfl
@[simp] theorem ids_id (n : Nat) : ids (.id n) = [] := rfl
@[simp] theorem ids_loc (l : Location) : ids (.loc l) = [] := rfl

theorem tag_ids (t : Tag) : ids t.toJson = [t.id] := by
  simp [Tag.toJson, ids, idsValues, idsPair, ownId, get?]

theorem cell_ids (c : Cell) : ids c.toJson = [] := by
  rfl

theorem row_ids (r : Row) : ids r.toJson = [r.id] := by
  have : ids (.list (r.cells.map Cell.toJson)) = [] := by
    rw [ids_map]; simp [cell_ids]
  simp only [Row.toJson, ids, idsValues, idsPair, ownId, get?] at this ⊢
  simp [this]

theorem table_ids (t : DataTable) : ids t.toJson = t.rows.map (·.id) := by
  rw [DataTable.toJson, ids_reject]
  have : ownId (.rejectNones [(py"location", some (.loc t.loc)), (py"rows", some (.list (t.rows.map Row.toJson)))]) = [] := rfl
  rw [this]
  have h : ids (.list (t.rows.map Row.toJson)) = t.rows.map (·.id) := by rw [ids_map]; simp [row_ids, ← List.map_eq_flatMap]
  simp [h]

theorem docString_ids (d : DocString) : ids d.toJson = [] := by
  rw [DocString.toJson]
  cases d.delimiter <;> cases d.mediaType <;> rfl

theorem step_ids (s : Step) : ids s.toJson = s.ids := by
  rw [Step.toJson, ids_reject, ownId_reject_id, Step.ids]
  cases s.keyword <;> cases s.keywordType <;> cases s.text <;> cases s.arg <;> simp [StepArg.pair, table_ids, docString_ids]

theorem background_ids (b : Background) : ids b.toJson = b.ids := by
  rw [Background.toJson, ids_reject, ownId_reject_id, Background.ids]
  cases b.keyword <;> cases b.name <;> simp [ids_map, step_ids]

theorem tags_ids (ts : List Tag) : ids (.list (ts.map Tag.toJson)) = ts.map (·.id) := by
  rw [ids_map]; simp [tag_ids, ← List.map_eq_flatMap]

theorem rows_ids (rs : List Row) : ids (.list (rs.map Row.toJson)) = rs.map (·.id) := by
  rw [ids_map]; simp [row_ids, ← List.map_eq_flatMap]

theorem examples_ids (e : Examples) : ids e.toJson = e.ids := by
  rw [Examples.toJson, ids_reject, ownId_reject_id, Examples.ids]
  cases e.keyword <;> cases e.name <;> cases e.header <;> simp [tags_ids, rows_ids, row_ids]

theorem scenario_ids (s : Scenario) : ids s.toJson = s.ids := by
  rw [Scenario.toJson, ids_reject, ownId_reject_id, Scenario.ids]
  have h1 : ids (.list (s.steps.map Step.toJson)) = s.steps.flatMap Step.ids := by rw [ids_map]; congr 1; funext x; exact step_ids x
  have h2 : ids (.list (s.examples.map Examples.toJson)) = s.examples.flatMap Examples.ids := by
    rw [ids_map]; congr 1; funext x; exact examples_ids x
  cases s.keyword <;> cases s.name <;> simp [tags_ids, h1, h2]

theorem wrap_ids (k : Str) (hk : py"id" ≠ k) (j : J) : ids (.dict [(k, j)]) = ids j := by
  rw [ids, ownId, get?]
  have : (py"id" == k) = false := by simpa using hk
  simp [List.lookup_cons, this, idsValues, idsPair]

theorem ruleChild_ids (c : RuleChild) : ids c.toJson = c.ids := by
  cases c with
  | background b => rw [RuleChild.toJson, wrap_ids _ (by decide), background_ids]; rfl
  | scenario b => rw [RuleChild.toJson, wrap_ids _ (by decide), scenario_ids]; rfl

theorem rule_ids (r : RuleNode) : ids r.toJson = r.ids := by
  rw [RuleNode.toJson, ids_reject, ownId_reject_id, RuleNode.ids]
  have h1 : ids (.list (r.children.map RuleChild.toJson)) = r.children.flatMap RuleChild.ids := by
    rw [ids_map]; congr 1; funext x; exact ruleChild_ids x
  cases r.keyword <;> cases r.name <;> simp [tags_ids, h1]

theorem featureChild_ids (c : FeatureChild) : ids c.toJson = c.ids := by
  cases c with
  | background b => rw [FeatureChild.toJson, wrap_ids _ (by decide), background_ids]; rfl
  | scenario b => rw [FeatureChild.toJson, wrap_ids _ (by decide), scenario_ids]; rfl
  | rule b => rw [FeatureChild.toJson, wrap_ids _ (by decide), rule_ids]; rfl

theorem feature_ids (f : Feature) : ids f.toJson = f.ids := by
  have h0 : ownId f.toJson = [] := by
    rw [Feature.toJson, ownId, get?_reject (by simp)]; rfl
  rw [Feature.toJson] at h0 ⊢
  rw [ids_reject, h0, Feature.ids]
  have h1 : ids (.list (f.children.map FeatureChild.toJson)) = f.children.flatMap FeatureChild.ids := by
    rw [ids_map]; congr 1; funext x; exact featureChild_ids x
  cases f.language <;> cases f.keyword <;> cases f.name <;> simp [tags_ids, h1]

theorem comment_ids (c : Comment) : ids c.toJson = [] := by
  rw [Comment.toJson]
  cases c.text <;> rfl

theorem withUri_ids (d : Document) (uri : Str) : ids (d.withUri uri) = d.ids := by
  have hc : ids (.list (d.comments.map Comment.toJson)) = [] := by rw [ids_map]; simp [comment_ids]
  have h0 : ownId (d.withUri uri) = [] := by
    rw [Document.withUri, ownId, get?_reject (by simp [Document.fields])]; rfl
  rw [Document.withUri] at h0 ⊢
  rw [ids_reject, h0, Document.ids, Document.fields]
  cases d.feature <;> simp [hc, feature_ids]

theorem document_ids (d : Document) : ids d.toJson = d.ids := by
  have hc : ids (.list (d.comments.map Comment.toJson)) = [] := by rw [ids_map]; simp [comment_ids]
  have h0 : ownId d.toJson = [] := by
    rw [Document.toJson, ownId, get?_reject (by simp [Document.fields])]; rfl
  rw [Document.toJson] at h0 ⊢
  rw [ids_reject, h0, Document.ids, Document.fields]
  cases d.feature <;> simp [hc, feature_ids]

end Gherkin
