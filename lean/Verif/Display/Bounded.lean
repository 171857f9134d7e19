/-
C34, C35, C36: bounded entity display, activity descriptions and trace metadata.
-/
import Verif.Display.PathProps

set_option autoImplicit false
set_option linter.unusedVariables false
set_option linter.unusedSimpArgs false

namespace Verif.Display

/-! ### `CustomDisplay::bounded_display` -/

/-- cpparser/src/display.rs 37-51: the loop of `bounded_display`.  `disp d` is
the display of the entity with recursion limit `d`; `ds` are the recursion
depths still to try. -/
def boundedLoop (M : Metrics) (maxCols : Nat) (disp : Nat → Text) : List Nat → Text → Text
  | [], prev => prev
  | d :: ds, prev =>
    if M.width (disp d) > maxCols then prev else boundedLoop M maxCols disp ds (disp d)

/-- cpparser/src/display.rs 33-52: `bounded_display` of an entity with the given
`recursion_depth`; `none` is the failure of `assert!(max_cols >= 1)`. -/
def boundedDisplay (M : Metrics) (disp : Nat → Text) (depth maxCols : Nat) : Option Text :=
  if maxCols < 1 then none
  else some (boundedLoop M maxCols disp (List.range (depth + 1)) [ellipsis])

theorem boundedLoop_spec (M : Metrics) (maxCols : Nat) (disp : Nat → Text) (k s : Nat) (prev : Text) :
    ∃ j ≤ k, (∀ i < j, M.width (disp (s + i)) ≤ maxCols) ∧
      (j < k → maxCols < M.width (disp (s + j))) ∧
      boundedLoop M maxCols disp (List.range' s k) prev
        = if j = 0 then prev else disp (s + (j - 1)) := by
  induction k generalizing s prev with
  | zero => exact ⟨0, Nat.le_refl _, by simp, by simp, by simp [boundedLoop]⟩
  | succ k ih =>
    rw [List.range'_succ]
    unfold boundedLoop
    by_cases h : M.width (disp s) > maxCols
    · rw [if_pos h]
      exact ⟨0, by omega, by simp, fun _ => by simpa using h, by simp⟩
    · rw [if_neg h]
      obtain ⟨j, hj, h1, h2, h3⟩ := ih (s + 1) (disp s)
      refine ⟨j + 1, by omega, ?_, ?_, ?_⟩
      · intro i hi
        cases i with
        | zero => simpa using h
        | succ i => have := h1 i (by omega); rwa [show s + (i + 1) = s + 1 + i by omega]
      · intro hlt; have := h2 (by omega); rwa [show s + (j + 1) = s + 1 + j by omega]
      · rw [h3, if_neg (show ¬ j + 1 = 0 by omega)]
        cases j with
        | zero => simp
        | succ j =>
          rw [if_neg (show ¬ j + 1 = 0 by omega)]
          congr 1; omega

/-- C36. For every entity (any display at each recursion limit) and every width
of at least one column, `bounded_display` succeeds and fits; it is the display
at the largest recursion limit `r` up to the advertised depth such that all
displays up to `r` fit, or a lone ellipsis if not even the display at limit zero
fits; in particular, it is the display at the advertised depth when all fit. -/
theorem boundedDisplay_spec (M : Metrics) (disp : Nat → Text) (depth maxCols : Nat)
    (h : 1 ≤ maxCols) :
    ∃ out, boundedDisplay M disp depth maxCols = some out ∧ M.width out ≤ maxCols ∧
      ((out = [ellipsis] ∧ maxCols < M.width (disp 0)) ∨
        ∃ r ≤ depth, out = disp r ∧ (∀ i ≤ r, M.width (disp i) ≤ maxCols) ∧
          (r < depth → maxCols < M.width (disp (r + 1)))) ∧
      ((∀ i ≤ depth, M.width (disp i) ≤ maxCols) → out = disp depth) := by
  obtain ⟨j, hj, h1, h2, h3⟩ := boundedLoop_spec M maxCols disp (depth + 1) 0 [ellipsis]
  simp only [Nat.zero_add] at h1 h2 h3
  have heq : boundedDisplay M disp depth maxCols
      = some (if j = 0 then [ellipsis] else disp (j - 1)) := by
    rw [boundedDisplay, if_neg (by omega), List.range_eq_range', h3]
  refine ⟨_, heq, ?_, ?_, ?_⟩
  · by_cases hj0 : j = 0
    · simp [hj0]; omega
    · rw [if_neg hj0]; exact h1 _ (by omega)
  · by_cases hj0 : j = 0
    · left; rw [hj0] at h2; simpa [hj0] using h2 (by omega)
    · right
      refine ⟨j - 1, by omega, by rw [if_neg hj0], fun i hi => h1 i (by omega), ?_⟩
      intro hlt
      rw [show j - 1 + 1 = j by omega]; exact h2 (by omega)
  · intro hall
    have hjd : j = depth + 1 := by
      by_contra hne
      have := h2 (by omega)
      have := hall j (by omega)
      omega
    rw [if_neg (by omega), hjd]; rfl

example : boundedDisplay .unit (fun d => List.replicate d ['('] ++ lit "@" ++ List.replicate d [')']) 3 6
    = some (lit "((@))") := by decide +kernel
example : boundedDisplay .unit (fun d => lit "long name") 3 6 = some [ellipsis] := by decide +kernel

/-! ### Activity descriptions -/

/-- An activity argument as it is displayed
(clang-time-trace `ActivityArgument`, src/ui/display/activity.rs 67-93).
`entity disp depth` is a parsed C++ entity, displayed as `disp d` at recursion
limit `d`; `full` is its display without limit. -/
inductive Arg where
  | nothing
  | unnamedLoop
  | module
  | str (s : Text)
  | path (comps : List Text)
  | entity (disp : Nat → Text) (depth : Nat) (full : Text)

/-- Result of `display_activity_desc`. -/
inductive DescResult where
  /-- text and whether to wrap it -/
  | ok (text : Text) (wrap : Bool)
  /-- `Err(NotEnoughCols(max_cols))` -/
  | notEnoughCols (cols : Nat)
  /-- panic -/
  | panic
deriving DecidableEq

/-- src/ui/display/activity.rs 67-93 with a single-line configuration: display of
the argument, in `cols` columns. -/
def argSingle (M : Metrics) (cols : Nat) : Arg → Option Text
  | .nothing => none  -- `unreachable!`
  | .unnamedLoop => displayString M (lit "<unnamed loop>") (.singleLine cols)
  | .module => displayString M (lit "[module]") (.singleLine cols)
  | .str s => displayString M s (.singleLine cols)
  | .path comps => truncatePath M comps cols
  | .entity disp depth _ => boundedDisplay M disp depth cols

/-- src/ui/display/activity.rs 67-93 with a multi-line configuration.
`path.to_boxed_path().display()` is the written path. -/
def argMulti : Arg → Option Text
  | .nothing => none
  | .unnamedLoop => some (lit "<unnamed loop>")
  | .module => some (lit "[module]")
  | .str s => some s
  | .path comps => some (writePath comps)
  | .entity _ _ full => some full

def Arg.isNothing : Arg → Bool
  | .nothing => true
  | _ => false

/-- src/ui/display/activity.rs 20-98: `display_activity_desc`.  `name` is
`activity_id.name()`.  `as u16` truncates, `saturating_sub` saturates at zero;
the updates of `header_cols`/`trailer_cols` (59-60) have no effect on the output
and are dropped (their overflow needs more than 65535 columns). -/
def displayActivityDesc (M : Metrics) (name : Text) (arg : Arg) (cfg : Config) : DescResult :=
  let hasArg := !arg.isNothing
  match cfg with
  | .singleLine maxCols =>
    if maxCols < M.width name + 3 * hasArg.toNat then .notEnoughCols maxCols
    else
      let cols := maxCols - (M.width name + 2) % 65536
      if !hasArg then .ok name false
      else match argSingle M cols arg with
        | none => .panic
        | some a => .ok (name ++ lit "(" ++ a ++ lit ")") false
  | .multiLine _ _ _ =>
    if !hasArg then .ok name true
    else match argMulti arg with
      | none => .panic
      | some a => .ok (name ++ lit "(" ++ a ++ lit ")") true

/-- Paths that occur in arguments: valid, and not the root directory itself. -/
def Arg.WF : Arg → Prop
  | .path comps => ValidPath comps ∧ 2 ≤ comps.length
  | _ => True

theorem argSingle_spec (M : Metrics) (cols : Nat) (h : 1 ≤ cols) (arg : Arg) (hwf : arg.WF)
    (hn : arg.isNothing = false) : ∃ a, argSingle M cols arg = some a ∧ M.width a ≤ cols := by
  cases arg with
  | nothing => cases hn
  | unnamedLoop => obtain ⟨o, h1, h2, _⟩ := displayString_spec M (lit "<unnamed loop>") cols h; exact ⟨o, h1, h2⟩
  | module => obtain ⟨o, h1, h2, _⟩ := displayString_spec M (lit "[module]") cols h; exact ⟨o, h1, h2⟩
  | str s => obtain ⟨o, h1, h2, _⟩ := displayString_spec M s cols h; exact ⟨o, h1, h2⟩
  | path comps => obtain ⟨o, h1, h2, _⟩ := truncatePath_spec M comps cols hwf.1 hwf.2 h; exact ⟨o, h1, h2⟩
  | entity disp depth full =>
    obtain ⟨o, h1, h2, _⟩ := boundedDisplay_spec M disp depth cols h; exact ⟨o, h1, h2⟩

/-- C35. For every activity name, argument and 16-bit column budget: the
single-line description never panics; it is an error exactly when the name, plus
`(…)` if there is an argument, is wider than the budget, and the error carries
that budget; otherwise it is `Name` or `Name(argument)` where the argument is
displayed in all columns that remain, and the whole fits in the budget. -/
theorem displayActivityDesc_single (M : Metrics) (name : Text) (arg : Arg) (maxCols : Nat)
    (hwf : arg.WF) (hu16 : maxCols < 65536) :
    (M.width name + (if arg.isNothing then 0 else 3) > maxCols →
      displayActivityDesc M name arg (.singleLine maxCols) = .notEnoughCols maxCols) ∧
    (M.width name + (if arg.isNothing then 0 else 3) ≤ maxCols →
      ∃ text, displayActivityDesc M name arg (.singleLine maxCols) = .ok text false ∧
        M.width text ≤ maxCols ∧
        (arg.isNothing = true → text = name) ∧
        (arg.isNothing = false → ∃ a, argSingle M (maxCols - M.width name - 2) arg = some a ∧
          text = name ++ lit "(" ++ a ++ lit ")")) := by
  have p1 : M.width (lit "(") = 1 := M.width_lit _ (by decide)
  have p2 : M.width (lit ")") = 1 := M.width_lit _ (by decide)
  cases hn : arg.isNothing with
  | true =>
    simp only [if_true, Nat.add_zero]
    constructor
    · intro h; simp [displayActivityDesc, hn]; omega
    · intro h
      exact ⟨name, by simp [displayActivityDesc, hn]; omega, h, fun _ => rfl, by simp⟩
  | false =>
    simp only [Bool.false_eq_true, if_false]
    constructor
    · intro h; simp [displayActivityDesc, hn]; omega
    · intro h
      have hmod : (M.width name + 2) % 65536 = M.width name + 2 := Nat.mod_eq_of_lt (by omega)
      obtain ⟨a, ha, hw⟩ := argSingle_spec M (maxCols - M.width name - 2) (by omega) arg hwf hn
      refine ⟨name ++ lit "(" ++ a ++ lit ")", ?_, ?_, by simp, fun _ => ⟨a, ha, rfl⟩⟩
      · rw [show maxCols - M.width name - 2 = maxCols - (M.width name + 2) by omega] at ha
        simp only [displayActivityDesc, hn, Bool.not_false, Bool.toNat_true, Nat.mul_one, hmod, ha]
        rw [if_neg (by omega)]
        rfl
      · simp only [Metrics.width_append, p1, p2]; omega

/-- The unshortened text of an argument, as a user knows it. -/
inductive FullText : Arg → Text → Prop
  | unnamedLoop : FullText .unnamedLoop (lit "<unnamed loop>")
  | module : FullText .module (lit "[module]")
  | str (s : Text) : FullText (.str s) s
  | path (comps : List Text) : FullText (.path comps) (writePath comps)
  | entity (disp : Nat → Text) (depth : Nat) (full : Text) : FullText (.entity disp depth full) full

/-- How an argument may appear on a line: in full, or shortened visibly, according to its kind. -/
inductive ArgShown : Arg → Text → Prop
  | full (arg : Arg) (t : Text) : FullText arg t → ArgShown arg t
  | text (arg : Arg) (pre mid suf : Text) : FullText arg (pre ++ mid ++ suf) → mid ≠ [] →
      (∀ c, arg ≠ .path c) → (∀ x y z, arg ≠ .entity x y z) → ArgShown arg (pre ++ [ellipsis] ++ suf)
  | path (comps : List Text) (t : Text) : PathShown comps t → ArgShown (.path comps) t
  | entity (disp : Nat → Text) (depth : Nat) (full : Text) (r : Nat) : r ≤ depth →
      ArgShown (.entity disp depth full) (disp r)
  | entityNothing (disp : Nat → Text) (depth : Nat) (full : Text) : ArgShown (.entity disp depth full) [ellipsis]

/-- C35, multi-line mode: never an error, nothing is shortened. -/
theorem displayActivityDesc_multi (M : Metrics) (name : Text) (arg : Arg) (a b c : Nat) :
    (arg = .nothing → displayActivityDesc M name arg (.multiLine a b c) = .ok name true) ∧
    (∀ t, FullText arg t →
      displayActivityDesc M name arg (.multiLine a b c) = .ok (name ++ lit "(" ++ t ++ lit ")") true) := by
  refine ⟨by rintro rfl; rfl, ?_⟩
  intro t ht
  cases ht <;> rfl

theorem shown_text (M : Metrics) (s : Text) (cols : Nat) (h : 1 ≤ cols) (a : Text)
    (ha : displayString M s (.singleLine cols) = some a) :
    (a = s ∨ ∃ pre mid suf, s = pre ++ mid ++ suf ∧ mid ≠ [] ∧ a = pre ++ [ellipsis] ++ suf) ∧
    (M.width s ≤ cols → a = s) := by
  obtain ⟨o, h1, h2, h3, h4⟩ := displayString_spec M s cols h
  rw [h1] at ha; cases ha
  refine ⟨?_, h3⟩
  by_cases hw : M.width s ≤ cols
  · exact Or.inl (h3 hw)
  · obtain ⟨pre, mid, suf, e1, e2, e3, -⟩ := h4 (by omega)
    exact Or.inr ⟨pre, mid, suf, e1, e2, e3⟩

/-- **C35, what is shown of the argument**: it is shown in full if it fits the columns left by the name and the
parentheses (for paths: with a column to spare), and otherwise shortened visibly. -/
theorem displayActivityDesc_argument (M : Metrics) (name : Text) (arg : Arg) (maxCols : Nat)
    (hwf : arg.WF) (hu16 : maxCols < 65536) (hn : arg.isNothing = false) (hw : M.width name + 3 ≤ maxCols) :
    ∃ a, displayActivityDesc M name arg (.singleLine maxCols) = .ok (name ++ lit "(" ++ a ++ lit ")") false ∧
      ArgShown arg a ∧
      (∀ t, FullText arg t → (∀ c, arg ≠ .path c) → (∀ x y z, arg ≠ .entity x y z) →
        M.width name + 2 + M.width t ≤ maxCols → a = t) ∧
      (∀ comps, arg = .path comps → (∀ c ∈ comps, 1 ≤ M.width c) →
        M.width name + 2 + M.width (writePath comps) < maxCols → a = writePath comps) ∧
      (∀ disp depth full, arg = .entity disp depth full →
        (∀ i ≤ depth, M.width name + 2 + M.width (disp i) ≤ maxCols) → a = disp depth) := by
  have hs := (displayActivityDesc_single M name arg maxCols hwf hu16).2 (by rw [hn]; simpa using hw)
  obtain ⟨text, h1, h2, -, h3⟩ := hs
  obtain ⟨a, ha, rfl⟩ := h3 hn
  refine ⟨a, h1, ?_⟩
  have hc : 1 ≤ maxCols - M.width name - 2 := by omega
  generalize hcols : maxCols - M.width name - 2 = cols at ha hc
  have strCase : ∀ s, FullText arg s → (∀ c, arg ≠ .path c) → (∀ x y z, arg ≠ .entity x y z) →
      displayString M s (.singleLine cols) = some a → (∀ t, FullText arg t → t = s) →
      ArgShown arg a ∧
      (∀ t, FullText arg t → (∀ c, arg ≠ .path c) → (∀ x y z, arg ≠ .entity x y z) →
        M.width name + 2 + M.width t ≤ maxCols → a = t) ∧
      (∀ comps, arg = .path comps → (∀ c ∈ comps, 1 ≤ M.width c) →
        M.width name + 2 + M.width (writePath comps) < maxCols → a = writePath comps) ∧
      (∀ disp depth full, arg = .entity disp depth full →
        (∀ i ≤ depth, M.width name + 2 + M.width (disp i) ≤ maxCols) → a = disp depth) := by
    intro s hf n1 n2 hd huniq
    obtain ⟨e1, e2⟩ := shown_text M s cols hc a hd
    refine ⟨?_, ?_, fun c h => absurd h (n1 c), fun x y z h => absurd h (n2 x y z)⟩
    · rcases e1 with rfl | ⟨pre, mid, suf, rfl, hm, rfl⟩
      · exact .full _ _ hf
      · exact .text _ pre mid suf hf hm n1 n2
    · intro t ht _ _ hfit
      rw [huniq t ht] at hfit ⊢
      exact e2 (by omega)
  cases arg with
  | nothing => cases hn
  | unnamedLoop => exact strCase _ .unnamedLoop (by simp) (by simp) ha (by intro t ht; cases ht; rfl)
  | module => exact strCase _ .module (by simp) (by simp) ha (by intro t ht; cases ht; rfl)
  | str s => exact strCase _ (.str s) (by simp) (by simp) ha (by intro t ht; cases ht; rfl)
  | path comps =>
    obtain ⟨o, e1, e2, e3, e4, -⟩ := truncatePath_spec M comps cols hwf.1 hwf.2 hc
    have : some o = some a := by rw [← e1]; exact ha
    cases this
    refine ⟨.path _ _ e3, ?_, ?_, by simp⟩
    · intro t _ h; exact absurd rfl (h comps)
    · intro c hcq hw1 hfit
      cases hcq
      exact e4 hw1 (by omega)
  | entity disp depth full =>
    obtain ⟨o, e1, e2, e3, e4⟩ := boundedDisplay_spec M disp depth cols hc
    have : some o = some a := by rw [← e1]; exact ha
    cases this
    refine ⟨?_, ?_, by simp, ?_⟩
    · rcases e3 with ⟨rfl, -⟩ | ⟨r, hr, rfl, -⟩
      · exact .entityNothing _ _ _
      · exact .entity _ _ _ r hr
    · intro t _ _ h; exact absurd rfl (h disp depth full)
    · intro d1 d2 d3 hq hfit
      cases hq
      exact e4 (fun i hi => by have := hfit i hi; omega)

-- non-vacuity: an elided path argument, and an error
example : displayActivityDesc .unit (lit "Source") (.path [root, lit "usr", lit "include", lit "stuff.h"])
    (.singleLine 22) = .ok (lit "Source(/usr/…/stuff.h)") false := by decide +kernel
example : (Arg.path [root, lit "usr", lit "include", lit "stuff.h"]).WF :=
  ⟨by unfold ValidPath; decide, by decide⟩
example : displayActivityDesc .unit (lit "Source") (.str (lit "x")) (.singleLine 8)
    = .notEnoughCols 8 := by decide +kernel

/-! ### Trace metadata -/

/-- src/ui/display/metadata.rs 26-44: `display_more`, on the buffer and the
width of its last line. -/
def displayMore (M : Metrics) (eff : Nat) (buf : Text) (last : Nat) (extra : Text) : Text × Nat :=
  let extra := if M.width extra > eff then [ellipsis] else extra
  let last := last + 1
  if last + 1 + M.width extra > eff then
    (buf ++ lit "," ++ lit "\n" ++ extra, M.width extra)
  else
    (buf ++ lit "," ++ lit " " ++ extra, last + 1 + M.width extra)

/-- src/ui/display/metadata.rs 9-61: `metadata`.  `extras` are the texts passed
to `display_more`, in order: `pid …`, `thread "…"`, `recorded …`, those present
in the trace; their formatting (`Debug` of a string, RFC 3339 date) is not
modelled.  `none` is the failure of `assert!(max_cols >= 1)`. -/
def metadata (M : Metrics) (process : Text) (extras : List Text) (maxCols : Nat) : Option Text :=
  if maxCols < 1 then none
  else
    let eff := maxCols - 1
    let buf := lit "Data from " ++ process
    if M.width buf > eff then some [ellipsis]
    else
      let r := extras.foldl (fun (acc : Text × Nat) e => displayMore M eff acc.1 acc.2 e)
        (buf, M.width buf)
      some (r.1 ++ lit ".")

/-- The line feed glyph. -/
def newline : Glyph := ['\n']

/-- Lines of a text. -/
def linesOf : Text → List Text
  | [] => [[]]
  | g :: t =>
    if g = newline then [] :: linesOf t
    else match linesOf t with
      | [] => [[g]]
      | l :: ls => (g :: l) :: ls

theorem linesOf_ne_nil (t : Text) : linesOf t ≠ [] := by
  cases t with
  | nil => simp [linesOf]
  | cons g t =>
    unfold linesOf
    split
    · simp
    · split <;> simp

/-- Lines of a text that continues with text without line feed. -/
theorem linesOf_append (a b : Text) :
    ∃ ls l l' ls', linesOf a = ls ++ [l] ∧ linesOf b = l' :: ls' ∧
      linesOf (a ++ b) = ls ++ (l ++ l') :: ls' := by
  induction a with
  | nil =>
    obtain ⟨l', ls', h⟩ := List.exists_cons_of_ne_nil (linesOf_ne_nil b)
    exact ⟨[], [], l', ls', rfl, h, by simpa using h⟩
  | cons g a ih =>
    obtain ⟨ls, l, l', ls', h1, h2, h3⟩ := ih
    by_cases hg : g = newline
    · exact ⟨[] :: ls, l, l', ls', by simp [linesOf, hg, h1], h2, by simp [linesOf, hg, h3]⟩
    · cases ls with
      | nil =>
        exact ⟨[], g :: l, l', ls', by simp at h1; simp [linesOf, hg, h1], h2,
          by simp at h3; simp [linesOf, hg, h3]⟩
      | cons x ls =>
        exact ⟨(g :: x) :: ls, l, l', ls', by simp at h1; simp [linesOf, hg, h1], h2,
          by simp at h3; simp [linesOf, hg, h3]⟩

theorem linesOf_width (M : Metrics) (t : Text) : ∀ l ∈ linesOf t, M.width l ≤ M.width t := by
  induction t with
  | nil => simp [linesOf]
  | cons g t ih =>
    intro l hl
    unfold linesOf at hl
    split at hl
    · rcases List.mem_cons.1 hl with rfl | hl
      · simp
      · have := ih l hl; simp; omega
    · split at hl
      · rename_i h; exact absurd h (linesOf_ne_nil t)
      · rename_i l' ls h
        rcases List.mem_cons.1 hl with rfl | hl
        · have := ih l' (by simp [h]); simp; omega
        · have := ih l (by simp [h, hl]); simp; omega

/-- All complete lines fit in `max` columns and the last one in `last`. -/
def Fits (M : Metrics) (max last : Nat) (t : Text) : Prop :=
  ∃ ls l, linesOf t = ls ++ [l] ∧ (∀ x ∈ ls, M.width x ≤ max) ∧ M.width l ≤ last

theorem Fits.append {M : Metrics} {max last : Nat} {t : Text} (h : Fits M max last t) (u : Text)
    (hm : last + M.width u ≤ max) : Fits M max (last + M.width u) (t ++ u) := by
  obtain ⟨ls, l, h1, h2, h3⟩ := h
  obtain ⟨ks, k, l', ls', g1, g2, g3⟩ := linesOf_append t u
  rw [h1] at g1
  have hinj := List.append_inj' g1 rfl
  obtain ⟨rfl, hk⟩ := hinj
  have hk : l = k := by simpa using hk
  subst hk
  have hl' : M.width l' ≤ M.width u := linesOf_width M u l' (by simp [g2])
  have hls' : ∀ x ∈ ls', M.width x ≤ M.width u := fun x hx => linesOf_width M u x (by simp [g2, hx])
  rcases List.eq_nil_or_concat ls' with rfl | ⟨ms, m, rfl⟩
  · exact ⟨ls, l ++ l', by simpa using g3, h2, by simp; omega⟩
  · refine ⟨ls ++ (l ++ l') :: ms, m, by simpa using g3, ?_, ?_⟩
    · intro x hx
      rcases List.mem_append.1 hx with hx | hx
      · exact h2 x hx
      · rcases List.mem_cons.1 hx with rfl | hx
        · simp; omega
        · have := hls' x (by simp [hx]); omega
    · have := hls' m (by simp); omega

theorem Fits.newline {M : Metrics} {max last : Nat} {t : Text} (h : Fits M max last t)
    (hm : last ≤ max) : Fits M max 0 (t ++ lit "\n") := by
  obtain ⟨ls, l, h1, h2, h3⟩ := h
  obtain ⟨ks, k, l', ls', g1, g2, g3⟩ := linesOf_append t (lit "\n")
  rw [h1] at g1
  obtain ⟨rfl, hk⟩ := List.append_inj' g1 rfl
  have hk : l = k := by simpa using hk
  subst hk
  have : linesOf (lit "\n") = [[], []] := by decide
  rw [this] at g2
  injection g2 with a b
  subst a b
  refine ⟨ls ++ [l], [], by simpa using g3, ?_, by simp⟩
  intro x hx
  rcases List.mem_append.1 hx with hx | hx
  · exact h2 x hx
  · have : x = l := by simpa using hx
    subst this; omega

theorem displayMore_fits (M : Metrics) (eff : Nat) (heff : 1 ≤ eff) (buf : Text) (last : Nat)
    (hl : last ≤ eff) (h : Fits M (eff + 1) last buf) (extra : Text) :
    (displayMore M eff buf last extra).2 ≤ eff ∧
    Fits M (eff + 1) (displayMore M eff buf last extra).2 (displayMore M eff buf last extra).1 := by
  have pc : M.width (lit ",") = 1 := M.width_lit _ (by decide)
  have ps : M.width (lit " ") = 1 := M.width_lit _ (by decide)
  unfold displayMore
  simp only
  generalize he : (if M.width extra > eff then [ellipsis] else extra) = e
  have hew : M.width e ≤ eff := by
    rw [← he]; split
    · simpa using heff
    · omega
  have h1 := h.append (lit ",") (by rw [pc]; omega)
  rw [pc] at h1
  split
  · have h2 := (h1.newline (by omega)).append e (by omega)
    simp only [Nat.zero_add] at h2
    exact ⟨hew, h2⟩
  · have h2 := (h1.append (lit " ") (by rw [ps]; omega))
    rw [ps] at h2
    have h3 := h2.append e (by omega)
    exact ⟨by simp only; omega, h3⟩

/-- C34. For every process name, every list of further facts and every width of
at least one column, the metadata text is produced and each of its lines is at
most that wide. -/
theorem metadata_fits (M : Metrics) (process : Text) (extras : List Text) (maxCols : Nat)
    (h : 1 ≤ maxCols) :
    ∃ out, metadata M process extras maxCols = some out ∧ ∀ l ∈ linesOf out, M.width l ≤ maxCols := by
  have pd : M.width (lit ".") = 1 := M.width_lit _ (by decide)
  have pdf : M.width (lit "Data from ") = 10 := M.width_lit _ (by decide)
  unfold metadata
  rw [if_neg (by omega)]
  simp only
  split
  · refine ⟨_, rfl, ?_⟩
    have : linesOf [ellipsis] = [[ellipsis]] := by decide
    intro l hl
    rw [this] at hl
    have : l = [ellipsis] := by simpa using hl
    subst this; simpa using h
  · rename_i hw
    have hfit0 : Fits M (maxCols - 1 + 1) (M.width (lit "Data from " ++ process))
        (lit "Data from " ++ process) := by
      have h0 : Fits M (maxCols - 1 + 1) 0 [] := ⟨[], [], rfl, by simp, by simp⟩
      have := h0.append (lit "Data from " ++ process) (by omega)
      simpa using this
    have heff : 1 ≤ maxCols - 1 := by simp only [Metrics.width_append, pdf] at hw; omega
    have hgen : ∀ (es : List Text) (acc : Text × Nat), acc.2 ≤ maxCols - 1 →
        Fits M (maxCols - 1 + 1) acc.2 acc.1 →
        (es.foldl (fun (acc : Text × Nat) e => displayMore M (maxCols - 1) acc.1 acc.2 e) acc).2
          ≤ maxCols - 1 ∧
        Fits M (maxCols - 1 + 1)
          (es.foldl (fun (acc : Text × Nat) e => displayMore M (maxCols - 1) acc.1 acc.2 e) acc).2
          (es.foldl (fun (acc : Text × Nat) e => displayMore M (maxCols - 1) acc.1 acc.2 e) acc).1 := by
      intro es
      induction es with
      | nil => intro acc h1 h2; exact ⟨h1, h2⟩
      | cons e es ih =>
        intro acc h1 h2
        obtain ⟨a, b⟩ := displayMore_fits M (maxCols - 1) heff acc.1 acc.2 h1 h2 e
        exact ih _ a b
    obtain ⟨a, b⟩ := hgen extras (lit "Data from " ++ process, M.width (lit "Data from " ++ process))
      (by simp only; omega) hfit0
    refine ⟨_, rfl, ?_⟩
    have hb := b.append (lit ".") (by rw [pd]; omega)
    rw [pd] at hb
    obtain ⟨ls, l, e1, e2, e3⟩ := hb
    intro x hx
    rw [e1] at hx
    rcases List.mem_append.1 hx with hx | hx
    · have := e2 x hx; omega
    · have : x = l := by simpa using hx
      subst this; omega

/-- Line feeds read as spaces. -/
def unwrap (t : Text) : Text := t.map fun g => if g = newline then [' '] else g

/-- C34, content: when the process name and every fact fit on a line of their
own, nothing is lost: up to line breaks, the text is the process name and the
facts separated by commas and ended by a dot. -/
theorem metadata_content (M : Metrics) (process : Text) (extras : List Text) (maxCols : Nat)
    (hp : newline ∉ process) (he : ∀ e ∈ extras, newline ∉ e)
    (hpw : M.width process + 11 ≤ maxCols) (hew : ∀ e ∈ extras, M.width e + 1 ≤ maxCols) :
    (metadata M process extras maxCols).map unwrap
      = some (lit "Data from " ++ process ++ extras.flatMap (fun e => lit ", " ++ e) ++ lit ".") := by
  have pdf : M.width (lit "Data from ") = 10 := M.width_lit _ (by decide)
  have hid : ∀ t : Text, newline ∉ t → unwrap t = t := by
    intro t ht
    unfold unwrap
    rw [List.map_congr_left (g := id)]
    · simp
    · intro g hg
      rw [if_neg (by rintro rfl; exact ht hg)]; rfl
  have happ : ∀ a b : Text, unwrap (a ++ b) = unwrap a ++ unwrap b := fun a b => by simp [unwrap]
  have hgen : ∀ (es : List Text) (acc : Text × Nat), (∀ e ∈ es, newline ∉ e) →
      (∀ e ∈ es, M.width e + 1 ≤ maxCols) →
      unwrap (es.foldl (fun (acc : Text × Nat) e => displayMore M (maxCols - 1) acc.1 acc.2 e) acc).1
        = unwrap acc.1 ++ es.flatMap (fun e => lit ", " ++ e) := by
    intro es
    induction es with
    | nil => intro acc _ _; simp
    | cons e es ih =>
      intro acc h1 h2
      rw [List.foldl_cons, ih _ (fun x hx => h1 x (by simp [hx])) (fun x hx => h2 x (by simp [hx]))]
      have hwe := h2 e (by simp)
      have hm : unwrap (displayMore M (maxCols - 1) acc.1 acc.2 e).1 = unwrap acc.1 ++ (lit ", " ++ e) := by
        unfold displayMore
        simp only
        rw [if_neg (show ¬ M.width e > maxCols - 1 by omega)]
        have u1 : unwrap (lit ",") = lit "," := by decide
        have u2 : unwrap (lit "\n") = lit " " := by decide
        have u3 : unwrap (lit " ") = lit " " := by decide
        have u4 : lit ", " = lit "," ++ lit " " := by decide
        have u5 := hid e (h1 e (by simp))
        split <;> simp only [happ, u1, u2, u3, u4, u5, List.append_assoc]
      rw [hm, List.flatMap_cons]
      simp only [List.append_assoc]
  unfold metadata
  rw [if_neg (by omega)]
  simp only
  rw [if_neg (by simp only [Metrics.width_append, pdf]; omega)]
  rw [Option.map_some, happ, hgen extras _ he hew]
  have u1 : unwrap (lit "Data from ") = lit "Data from " := by decide
  have u2 : unwrap (lit ".") = lit "." := by decide
  simp only [happ, u1, u2, hid process hp, List.append_assoc]

-- non-vacuity
example : metadata .unit (lit "clang-14") [lit "pid 5884", lit "thread \"c\""] 24
    = some (lit "Data from clang-14,\npid 5884, thread \"c\".") := by decide +kernel

end Verif.Display
