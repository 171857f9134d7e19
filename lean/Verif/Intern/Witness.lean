import Verif.Intern.Interner
import Verif.Intern.SeqKey
import Verif.Intern.Seq
import Verif.Intern.Path
import Verif.Intern.Rec
set_option autoImplicit false

/-! # The theorems of C14-C19 applied to concrete histories -/
namespace Verif.Intern

theorem wInterned : (Interner.new : Interner Nat).internAll 3 [7, 8, 7] = .ok ([0, 1, 0], ⟨[7, 8], [0, 1]⟩) := rfl

example := c14_intern_history [7, 8, 7] _ _ wInterned
example := c14_keys_stay_valid [7, 8, 7] [9, 8] _ _ wInterned [2, 1] ⟨[7, 8, 9], [0, 1, 2]⟩ rfl

example := c15_roundtrip defaultCfg 5 12 (5 * 256 + 7) (by decide) (by decide) (by decide)
example := c15_injective defaultCfg 5 12 5 12 (5 * 256 + 7) (by decide) (by decide) (by decide) (by decide) (by decide) (by decide)
example := c15_exhausted_iff defaultCfg 0 256 (by decide)
example := c15_exhausted_iff_bits defaultCfg 32 0 256 (by decide) (by decide) (by decide) (by decide)

/-- Direct interning, an entry with a pop, an abandoned entry, an empty sequence. -/
def wOps : List (SeqOp Nat) :=
  [.intern [1, 2], .abandon [.push 9, .push 9], .entry [.push 1, .push 5, .pop, .push 2], .intern [], .entry [.push 2]]

theorem wRun : (SeqInterner.new : SeqInterner Nat).run defaultCfg wOps =
    ([.key 2, .abandoned, .key 2, .key 512, .key 513], ⟨[1, 2, 2], [2, 512, 513]⟩) := by decide

example := c16_sequences_history defaultCfg wOps _ _ wRun
example := c16_counters defaultCfg wOps _ _ wRun
example := c16_panics_iff defaultCfg wOps _ _ wRun (.intern [2]) [2] rfl
example := c17_pop_empty (SeqInterner.mk [10, 11] [2]) [.push 1, .pop] rfl

/-- A path with dots, a relative path, another spelling of the first path, and the root. -/
def wPaths : List Name := ["/a/./b/../../..//c".toList, "x/y".toList, "/c/".toList, "/".toList]

theorem wPaths_run : (PathInterner.new.run defaultCfg 100 wPaths).1 = [.key 2, .relative, .key 2, .key 513] := by decide

theorem wPaths_run' : PathInterner.new.run defaultCfg 100 wPaths =
    ([.key 2, .relative, .key 2, .key 513], (PathInterner.new.run defaultCfg 100 wPaths).2) :=
  Prod.ext wPaths_run rfl

example := c18_components defaultCfg 100 wPaths _ _ wPaths_run' 0 _ _ rfl rfl
example := c18_components defaultCfg 100 wPaths _ _ wPaths_run' 1 _ _ rfl rfl
example := c18_keys_iff defaultCfg 100 wPaths _ _ wPaths_run' 0 2 _ _ 2 2 rfl rfl rfl rfl
example := c18_keys_iff defaultCfg 100 wPaths _ _ wPaths_run' 0 3 _ _ 2 513 rfl rfl rfl rfl
example := c18_relative_rejected defaultCfg 100 (PathInterner.new.run defaultCfg 100 wPaths).2 "x/y".toList (by decide)
example := c18_len defaultCfg 100 wPaths _ _ wPaths_run'

theorem wNames : ∀ n ∈ ["a".toList, "b c".toList], ProperName n := by simp [ProperName]

example : boxedPath (['/'] :: ["a".toList, "b c".toList]) = "/a/b c".toList := by
  rw [c18_display _ wNames]; decide
example : normalize "/a/b c".toList = ["a".toList, "b c".toList] := by
  have := c18_plain_path _ wNames
  rwa [c18_display _ wNames] at this
example := c18_normalized_names "/a/../b".toList "b".toList (by decide)

example : 2 = 2 := c18_idempotent defaultCfg 100 wPaths _ _ wPaths_run' 0 _ 2 [['/'], "c".toList] rfl rfl (by decide) 2 _
  (Prod.ext (by decide) rfl : (PathInterner.new.run defaultCfg 100 wPaths).2.intern defaultCfg 100 (boxedPath [['/'], "c".toList]) = (.key 2, _))

/-- Two interleaved entries, one dropped with items in its buffer, whose buffer is then recycled. -/
def wRec : List (RecOp Nat) :=
  [.entry, .push 0 1, .entry, .push 1 7, .push 0 2, .drop 1, .entry, .push 2 1, .push 2 2, .finish 2, .finish 0, .intern [7]]

example := c19_entries_do_not_interfere defaultCfg wRec
  [.opened 0, .unit, .opened 1, .unit, .unit, .unit, .opened 2, .unit, .unit, .key 2, .key 2, .key 513]
  ((RecState.new : RecState Nat).run defaultCfg wRec).2 (Prod.ext (by decide) rfl) (by decide)

end Verif.Intern
