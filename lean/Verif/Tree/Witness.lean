import Verif.Tree.Props
import Verif.Tree.Float
set_option autoImplicit false

/-! # The theorems of C01-C06 applied to a concrete trace

Four activities: "parse" and "codegen" inside "frontend", then "backend" (`exXs`, `Tree/Props`). Every hypothesis of every
theorem is met. -/
namespace Verif.Tree

example := c01_contents exLoad
example := c01_root_xor_child exLoad (i := 1) (by decide)
example := c02_parent_inverse exLoad (c := 1) (by decide)
example := c02_roots_no_parent exLoad (c := 3) (by decide)
example := c03_nested exLoad (p := 2) (c := 1) ⟨[1, 0], by decide, by decide⟩
example := c05_self_duration exLoad (i := 2) (by decide)
example := c05_root_sum exLoad
example := c06_accessors_no_panic exLoad

theorem flXs_whole : ∀ a ∈ flXs, WholeTimes floorRnd a := by
  intro a ha
  simp only [flXs, List.mem_cons, List.not_mem_nil, or_false] at ha
  rcases ha with rfl | rfl | rfl | rfl
  · exact ⟨2, 3, by norm_num, by norm_num, by norm_num, by norm_num [floorRnd]⟩
  · exact ⟨5, 4, by norm_num, by norm_num, by norm_num, by norm_num [floorRnd]⟩
  · exact ⟨1, 9, by norm_num, by norm_num, by norm_num, by norm_num [floorRnd]⟩
  · exact ⟨11, 1, by norm_num, by norm_num, by norm_num, by norm_num [floorRnd]⟩

example : ∃ t, load 0 (flXs.map (Stat.mapDur Fl.val)) = .ok t := by
  obtain ⟨t, h⟩ : ∃ t, load 0 flXs = .ok t := ⟨_, by with_unfolding_all rfl⟩
  exact ⟨_, c05_float_exact floor_rounds 0 flXs t flXs_whole h⟩

end Verif.Tree
