import Verif.Analysis.Hot
import Verif.Analysis.Report
import Verif.Analysis.Stdio
set_option autoImplicit false

/-! # Theorems of C39, C40, C54-C56 and C82 applied to concrete traces -/
namespace Verif.Analysis
open Verif.Tree Verif.Display

/-- The activities of `exTree` (a parse and a code generation inside the front end, then the back end) above 3. -/
example : ∃ out, HottestOut (allActivities exTree) (fun i => .num (((duration exTree i).getD 0 : Int))) (.num 3) (.ok out) ∧
    out.Nodup ∧ ∀ i, i ∈ out ↔ i < exXs.length ∧ (Fl.num (((duration exTree i).getD 0 : Int))).ge (.num 3) = true := by
  obtain ⟨o, ho⟩ := hottest_exists (allActivities exTree) (fun i => .num (((duration exTree i).getD 0 : Int))) (.num 3)
  obtain ⟨out, rfl, h1, h2, -⟩ := hottest_all exLoad _ _ o ho
  exact ⟨out, ho, h1, h2⟩

example := breakdown_total id exLoad
  (.ok [("codegen", .num 4), ("parse", .num 3), ("frontend", .num 2), ("backend", .num 1)])
  ⟨_, List.Perm.refl _, .ok _ (List.Perm.swap _ _ _) (by decide)⟩

example := typeProfile_spec (ν := String) (K := ℚ) (1/10) (2/10) (by norm_num) [("a", 5), ("b", 3), ("c", 1), ("d", 1)]
  (by simp; norm_num)

example := displayActivity_spec .unit (lit "Source") (.path [root, lit "usr", lit "include", lit "stuff.h"]) (lit " [5s, 50%]") 32
  ⟨by unfold ValidPath; decide, by decide⟩ (by decide) (by decide) (by decide) (by decide)

example := flatProfile_spec .unit (fun _ _ => some (lit "x")) [3, 1] 5 3 (by decide)
  (fun _ _ c h _ => ⟨lit "x", rfl, h⟩)

example := hierTree_no_panic .unit exProf 5 (fun _ _ _ _ => ⟨_, rfl⟩) 5 (by decide) (by decide) 0

theorem wHier : hierTree .unit exProf 5 0 = some (.node (.act 0) (lit "x")
    [.node (.act 1) (lit "x") [.node (.act 3) (lit "x") []], .node (.more 1) [ellipsis] []]) := by
  with_unfolding_all rfl

example := hierTree_shows .unit exProf (fun i => decide (i ≠ 2)) (fun _ => List.Perm.refl _) 5 0 _ wHier
example := hierTree_kids .unit exProf (fun i => decide (i ≠ 2)) (fun _ => List.Perm.refl _) 5 0 _ wHier
example := hierTree_fits .unit exProf 5 (fun _ _ _ h _ e => by cases e; exact h) 5 (by decide) (by decide) 0 _ wHier

example : ∃ p hot, hierTree .unit (treeProf .unit exTree hot (fun _ => lit "Source") (fun _ => .nothing) (fun _ => lit " [1s]")
    (fun _ => lit "more")) 20 2 = some p := by
  have h : ∀ l, ∃ out, HottestOut l (fun i => Fl.num (((duration exTree i).getD 0 : Int))) (.num 3) (.ok out) := by
    intro l
    obtain ⟨o, ho⟩ := hottest_exists l (fun i => Fl.num (((duration exTree i).getD 0 : Int))) (.num 3)
    obtain ⟨out, rfl, -⟩ := hottest_spec l _ _ o ho
    exact ⟨out, ho⟩
  obtain ⟨p, hp, -⟩ := hierarchical_profile .unit exTree _ _ (fun l => (h l).choose) (fun l => (h l).choose_spec)
    (fun _ => lit "Source") (fun _ => .nothing) (fun _ => lit " [1s]") (fun _ => lit "more") (fun _ => trivial)
    (fun _ => by decide) (fun _ => by decide) 20 (by decide) (by decide) 2
  exact ⟨p, _, hp⟩

end Verif.Analysis

namespace Verif.Analysis.Stdio
open Verif.Tree Verif.Display

/-- Whatever the (always possible, `choice_exists`) order of equal values, the sample with one root is reported. -/
theorem sample_ok (C : Choice ℚ) (hC : C.Valid (sampleTrace sampleXs)) :
    (run .unit sampleFormat C (some (some (sampleTrace sampleXs))) (some 80) 200 (.num (1/10 : ℚ)) (.num (1/10 : ℚ))).2.ok = true := by
  refine (c82_completes .unit sampleFormat C _ hC (sampleSensible _) (sampleLoad sampleXs (by decide +kernel)) _ _ (by decide) _ _).2 ?_
  refine ⟨by decide, fun _ => by decide, Or.inr fun o h => ?_, 3, by decide +kernel, fun _ _ => rfl, fun _ _ _ => rfl⟩
  cases h; exact (date_iff _).1 (by decide +kernel)

example (C : Choice ℚ) (hC : C.Valid (sampleTrace sampleXs)) :=
  c82_report .unit ⟨rfl, rfl, rfl, rfl⟩ sampleFormat C _ hC (sampleSensible _) (sampleLoad sampleXs (by decide +kernel))
    (by decide +kernel) (some 80) 200 (by decide) (.num (1/10 : ℚ)) (.num (1/10 : ℚ)) (sample_ok C hC)

/-- Two roots: the run stops at the heading of the tree. -/
example : ∃ (C : Choice ℚ) (flat : List (Line ℚ)), C.Valid (sampleTrace (sampleXs.take 3)) ∧
    (run .unit sampleFormat C (some (some (sampleTrace (sampleXs.take 3)))) (some 80) 200 (.num (1/10 : ℚ)) (.num (1/10 : ℚ))).2.ok =
      false ∧
    FlatShown .unit sampleFormat (sampleTrace (sampleXs.take 3)) (.num (1/10 : ℚ)) 80 flat := by
  obtain ⟨C, hC⟩ := choice_exists (sampleTrace (sampleXs.take 3))
  obtain ⟨m, flat, h1, h2⟩ := c82_several_roots .unit sampleFormat C _ hC (sampleSensible _)
    (sampleLoad (sampleXs.take 3) (by decide +kernel)) (some 80) 200 (by decide) (.num (1/10 : ℚ)) (.num (1/10 : ℚ)) (by decide)
    (fun o h => by cases h; exact (date_iff _).1 (by decide +kernel)) (fun _ => rfl) [2, 1] (by decide +kernel) (by decide)
  exact ⟨C, flat, hC, by rw [h1], h2⟩

example := c82_total (sampleLoad sampleXs (by decide +kernel))

end Verif.Analysis.Stdio
