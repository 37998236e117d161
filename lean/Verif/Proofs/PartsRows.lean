import Verif.Spec.Rows
import Verif.Proofs.PartsGather

/-! The pickles and cases of an outline are those of its rows, one after the other. -/

namespace Gherkin

open Cst Pickles
open Layout (place)

/-- The outlines of one row each. -/
def Scenario.split (s : Scenario) : List Scenario :=
  if s.examples.isEmpty then [s]
  else s.examples.flatMap fun e => e.header.toList.flatMap fun h => e.body.map fun r => { s with examples := [{ e with header := some h, body := [r] }] }

namespace Pickles

theorem each_cons {α β : Type} (f : α → M β) (a : α) (as : List α) : each f (a :: as) = f a >>= fun b => each f as >>= fun bs => Pure.pure (b :: bs) := rfl

theorem each_outcome {α : Type} {f : α → M (List Pickle)} (hf : ∀ a, Alike (List.map Pickle.content) (f a) (f a)) : ∀ as : List α,
    outcome (each f as >>= fun pss => Pure.pure pss.flatten) = gather (as.map fun a => outcome (f a))
  | [] => rfl
  | a :: as => by
    have ih := each_outcome hf as
    have e1 : (each f (a :: as) >>= fun pss => Pure.pure pss.flatten) =
        f a >>= fun ps => (each f as >>= fun pss => Pure.pure pss.flatten) >>= fun qs => Pure.pure (ps ++ qs) := by
      rw [each_cons]
      funext n
      show Pickles.bind (Pickles.bind (f a) fun b => Pickles.bind (each f as) fun bs => Pickles.pure (b :: bs)) (fun pss => Pickles.pure pss.flatten) n =
        Pickles.bind (f a) (fun ps => Pickles.bind (Pickles.bind (each f as) fun pss => Pickles.pure pss.flatten) fun qs => Pickles.pure (ps ++ qs)) n
      unfold Pickles.bind Pickles.pure
      rcases f a n with e | ⟨b, k⟩
      · rfl
      · simp only
        rcases each f as k with e | ⟨bs, j⟩ <;> simp
    rw [e1, outcome_seq, ih, List.map_cons, gather]
    refine (Alike.each (g := List.map Pickle.content) (R := fun a b => a = b) ?_ (forall₂_same (fun _ => rfl) as)).bind fun p p' e => Alike.pure ?_
    · rintro a _ rfl; exact hf a
    · rw [List.map_flatten, List.map_flatten, e]

/-- The pickle of a row, as the only one. -/
def rowAlone (eng : Engine) (uri : Str) (tags : List Tag) (bg : List Step) (s : Scenario) (language : Str) (e : Examples) (header row : Row) : M (List Pickle) :=
  compileRow eng uri tags bg s language e header row >>= fun p => Pure.pure [p]

theorem rows_alone {f : Row → M Pickle} : ∀ rs : List Row, each f rs = (each (fun r => f r >>= fun p => Pure.pure [p]) rs >>= fun pss => Pure.pure pss.flatten)
  | [] => rfl
  | r :: rs => by
    rw [each_cons, each_cons, rows_alone rs]
    funext n
    generalize hz : each (fun r => f r >>= fun p => (Pure.pure [p] : M (List Pickle))) rs = z
    show Pickles.bind (f r) (fun b => Pickles.bind (Pickles.bind z fun pss => Pickles.pure pss.flatten) fun bs => Pickles.pure (b :: bs)) n =
      Pickles.bind (Pickles.bind (Pickles.bind (f r) fun p => Pickles.pure [p]) fun b => Pickles.bind z fun bs => Pickles.pure (b :: bs)) (fun pss => Pickles.pure pss.flatten) n
    unfold Pickles.bind Pickles.pure
    rcases f r n with e | ⟨b, k⟩
    · rfl
    · simp only
      rcases z k with e | ⟨bs, j⟩ <;> simp

/-- An outline of one row is compiled as this row is in the whole outline. -/
theorem one_row (eng : Engine) (uri : Str) (tags : List Tag) (bg : List Step) (s : Scenario) (lang : Str) (e : Examples) (h r : Row) :
    compileAny eng uri tags bg { s with examples := [{ e with header := some h, body := [r] }] } lang = rowAlone eng uri tags bg s lang e h r := by
  unfold compileAny compileOutline
  simp only [List.isEmpty_cons, Bool.false_eq_true, if_false]
  unfold rowAlone each each
  funext n
  show Pickles.bind (Pickles.bind (Pickles.bind (compileRow eng uri tags bg s lang e h r) fun b => Pickles.bind (Pickles.pure []) fun bs => Pickles.pure (b :: bs)) fun b =>
      Pickles.bind (Pickles.pure []) fun bs => Pickles.pure (b :: bs)) (fun pss => Pickles.pure pss.flatten) n =
    Pickles.bind (compileRow eng uri tags bg s lang e h r) (fun p => Pickles.pure [p]) n
  unfold Pickles.bind Pickles.pure
  rcases compileRow eng uri tags bg s lang e h r n with x | ⟨b, k⟩ <;> simp

theorem rowAlone_same (eng : Engine) (uri : Str) (tags : List Tag) (bg : List Step) (s : Scenario) (lang : Str) (e : Examples) (h r : Row) :
    Alike (List.map Pickle.content) (rowAlone eng uri tags bg s lang e h r) (rowAlone eng uri tags bg s lang e h r) := by
  rw [← one_row]
  exact compileAny_same _ _ _ _ _ _

theorem split_outcome (eng : Engine) (uri : Str) (tags : List Tag) (bg : List Step) (s : Scenario) (lang : Str) :
    outcome (compileAny eng uri tags bg s lang) = gather (s.split.map fun x => outcome (compileAny eng uri tags bg x lang)) := by
  unfold Scenario.split
  split
  · rw [List.map_cons, List.map_nil, gather_one]
  · rename_i he
    have e1 : compileAny eng uri tags bg s lang = compileOutline eng uri tags bg s lang := by
      unfold compileAny
      rw [if_neg he]
    have e2 : ∀ e : Examples, (match e.header with | none => Pure.pure [] | some header => each (fun row => compileRow eng uri tags bg s lang e header row) e.body : M (List Pickle)) =
        (each (fun (x : Row × Row) => rowAlone eng uri tags bg s lang e x.1 x.2) (e.header.toList.flatMap fun h => e.body.map fun r => (h, r)) >>= fun pss => Pure.pure pss.flatten) := by
      intro e
      cases e.header with
      | none => rfl
      | some h =>
        simp only [Option.toList_some, List.flatMap_cons, List.flatMap_nil, List.append_nil]
        rw [rows_alone]
        congr 1
        have : ∀ rs : List Row, each (fun r => compileRow eng uri tags bg s lang e h r >>= fun p => (Pure.pure [p] : M (List Pickle))) rs =
            each (fun x : Row × Row => rowAlone eng uri tags bg s lang e x.1 x.2) (rs.map fun r => (h, r)) := by
          intro rs
          induction rs with
          | nil => rfl
          | cons r rs ih => rw [each_cons, List.map_cons, each_cons, ih]; rfl
        exact this _
    have e3 : compileOutline eng uri tags bg s lang = (each (fun e : Examples => (each (fun (x : Row × Row) => rowAlone eng uri tags bg s lang e x.1 x.2)
        (e.header.toList.flatMap fun h => e.body.map fun r => (h, r)) >>= fun pss => (Pure.pure pss.flatten : M (List Pickle)))) s.examples >>= fun pss => Pure.pure pss.flatten) := by
      unfold compileOutline
      congr 1
      congr 1
      funext e
      exact e2 e
    rw [e1, e3, each_outcome, List.map_flatMap, gather_flatMap]
    · congr 1
      refine List.map_congr_left fun e _ => ?_
      rw [each_outcome]
      · congr 1
        rw [List.map_flatMap, List.map_flatMap]
        refine List.flatMap_congr fun h _ => ?_
        rw [List.map_map, List.map_map]
        refine List.map_congr_left fun r _ => ?_
        simp only [Function.comp, one_row]
      · intro x; exact rowAlone_same _ _ _ _ _ _ _ _ _
    · intro e
      refine (Alike.each (g := List.map Pickle.content) (R := fun a b => a = b) ?_ (forall₂_same (fun _ => rfl) _)).bind fun p p' e => Alike.pure ?_
      · rintro x _ rfl; exact rowAlone_same _ _ _ _ _ _ _ _ _
      · rw [List.map_flatten, List.map_flatten, e]

end Pickles

theorem split_contents (tags : List Tag) (bg : List Step) (s : Scenario) :
    (s.cases tags bg).map Case.content = s.split.flatMap fun x => (x.cases tags bg).map Case.content := by
  unfold Scenario.split
  split
  · simp
  · rename_i he
    unfold Scenario.cases Scenario.rows
    cases hx : s.examples with
    | nil => rw [hx] at he; simp at he
    | cons e0 es =>
      simp only [List.map_flatMap, List.flatMap_assoc]
      refine List.flatMap_congr fun e _ => List.flatMap_congr fun h _ => ?_
      rw [List.flatMap_map, List.map_map, List.map_map]
      rw [List.map_eq_flatMap]
      refine List.flatMap_congr fun r _ => ?_
      simp [Function.comp, Case.content, Case.tags, rowContent]

end Gherkin
