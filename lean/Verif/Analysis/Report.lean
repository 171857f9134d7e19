/-
C54, C55, C56: the non-interactive report (src/ui/stdio.rs).
-/
import Verif.Analysis.Hot
import Verif.Display.Bounded
import Mathlib.Algebra.Order.Ring.Rat
import Mathlib.Algebra.Order.Field.Basic

set_option autoImplicit false
set_option linter.unusedVariables false
set_option linter.unusedSimpArgs false

namespace Verif.Analysis

open Verif.Display Verif.Tree

/-! ## Profile by activity type (C54) -/

/-- What `print_activity_type_profile` (src/ui/stdio.rs 75-94) prints. -/
inductive TypeLine (ν D : Type) where
  /-- "- name [duration, percent]" -/
  | entry (name : ν) (duration : D)
  /-- "- ... and n other activity types below threshold ..." -/
  | others (n : Nat)
  deriving DecidableEq

section
variable {K : Type} [Field K] [LinearOrder K] [IsStrictOrderedRing K]

/-- The loop of `print_activity_type_profile` (src/ui/stdio.rs 78-93); durations are
exact numbers here. -/
def typeProfile {ν : Type} (norm threshold : K) : List (ν × K) → List (TypeLine ν K)
  | [] => []
  | (name, d) :: rest =>
    if d * norm < threshold then [.others (rest.length + 1)]
    else .entry name d :: typeProfile norm threshold rest

/-- **C54.** For a breakdown sorted by decreasing duration and a norm that is not
negative: exactly the types whose share is at least the threshold are printed, in
the order of the breakdown, followed, unless no type is left out, by one line with
the number of types left out. -/
theorem typeProfile_spec {ν : Type} (norm threshold : K) (hn : 0 ≤ norm) (l : List (ν × K))
    (hs : l.Pairwise fun a b => b.2 ≤ a.2) :
    typeProfile norm threshold l =
      (l.filter fun e => threshold ≤ e.2 * norm).map (fun e => .entry e.1 e.2) ++
      (if (l.filter fun e => e.2 * norm < threshold) = [] then []
       else [.others (l.filter fun e => e.2 * norm < threshold).length]) := by
  induction l with
  | nil => simp [typeProfile]
  | cons e l ih =>
    obtain ⟨name, d⟩ := e
    simp only [List.pairwise_cons] at hs
    simp only [typeProfile]
    by_cases h : d * norm < threshold
    · have hall : ∀ x ∈ l, x.2 * norm < threshold := fun x hx =>
        lt_of_le_of_lt (mul_le_mul_of_nonneg_right (hs.1 x hx) hn) h
      have h1 : (l.filter fun e => threshold ≤ e.2 * norm) = [] := by
        rw [List.filter_eq_nil_iff]
        intro x hx
        simpa using hall x hx
      have h2 : (l.filter fun e => e.2 * norm < threshold) = l := by
        rw [List.filter_eq_self]
        intro x hx
        simpa using hall x hx
      have h3 : ¬ threshold ≤ d * norm := not_le.2 h
      simp [h, h3, h1, h2]
    · have h3 : threshold ≤ d * norm := not_lt.1 h
      rw [if_neg h, ih hs.2]
      simp only [List.filter_cons, h, h3, decide_true, decide_false, if_true, Bool.false_eq_true,
        if_false, List.map_cons, List.cons_append]

end

example : typeProfile (ν := String) (K := ℚ) (1/10) (2/10) [("a", 5), ("b", 3), ("c", 1), ("d", 1)] =
    [.entry "a" 5, .entry "b" 3, .others 2] := by decide +kernel

/-! ## One activity (C55) -/

/-- `display_activity` (src/ui/stdio.rs 253-302).  `trailer` is the text of
`display_profile_info` (305-314); `none` is a panic (failure of the assertion at 261
included). -/
def displayActivity (M : Metrics) (name : Text) (arg : Arg) (trailer : Text) (maxCols : Nat) :
    Option Text :=
  if maxCols < 1 then none
  else
    let otherCols := maxCols - M.width trailer % 65536
    match displayActivityDesc M name arg (.singleLine otherCols) with
    | .ok text false => some (text ++ trailer)
    | .notEnoughCols _ =>
      match displayActivityDesc M name arg (.singleLine maxCols) with
      | .ok text false => some text
      | .notEnoughCols _ => some [ellipsis]
      | _ => none
    | _ => none

/-- **C55.** For every activity whose name is visible, every argument and every budget of
at least one column (and at most 65535): `display_activity` does not panic and its
output fits in the budget.  It is the description in the columns that the profiling
numbers leave, followed by those numbers, if the description is possible there;
else the description alone in all columns, if that is possible; else an ellipsis. -/
theorem displayActivity_spec (M : Metrics) (name : Text) (arg : Arg) (trailer : Text) (maxCols : Nat)
    (hwf : arg.WF) (h1 : 1 ≤ maxCols) (hu16 : maxCols < 65536) (hname : 1 ≤ M.width name)
    (htr : M.width trailer < 65536) :
    let need := M.width name + (if arg.isNothing then 0 else 3)
    ∃ out, displayActivity M name arg trailer maxCols = some out ∧ M.width out ≤ maxCols ∧
      (need + M.width trailer ≤ maxCols → ∃ d,
        displayActivityDesc M name arg (.singleLine (maxCols - M.width trailer)) = .ok d false ∧
        out = d ++ trailer) ∧
      (maxCols < need + M.width trailer → need ≤ maxCols →
        displayActivityDesc M name arg (.singleLine maxCols) = .ok out false) ∧
      (maxCols < need → out = [ellipsis]) := by
  intro need
  have hneed : 1 ≤ need := Nat.le_trans hname (Nat.le_add_right _ _)
  unfold displayActivity
  rw [if_neg (by omega), Nat.mod_eq_of_lt htr]
  have ho := displayActivityDesc_single M name arg (maxCols - M.width trailer) hwf (by omega)
  have hf := displayActivityDesc_single M name arg maxCols hwf hu16
  simp only at ho hf ⊢
  by_cases hA : need ≤ maxCols - M.width trailer
  · obtain ⟨d, hd, hw, -, -⟩ := ho.2 hA
    rw [hd]
    exact ⟨d ++ trailer, rfl, by rw [Metrics.width_append]; omega, fun _ => ⟨d, rfl, rfl⟩,
      fun h => by omega, fun h => by omega⟩
  · rw [ho.1 (by omega)]
    by_cases hB : need ≤ maxCols
    · obtain ⟨d, hd, hw, -, -⟩ := hf.2 hB
      rw [hd]
      exact ⟨d, rfl, hw, fun h => by omega, fun _ _ => rfl, fun h => by omega⟩
    · rw [hf.1 (by omega)]
      exact ⟨[ellipsis], rfl, by simp; omega, fun h => by omega, fun _ h => by omega, fun _ => rfl⟩

-- non-vacuity: the three cases
example : displayActivity .unit (lit "Source") (.path [root, lit "usr", lit "include", lit "stuff.h"])
    (lit " [5s, 50%]") 32 = some (lit "Source(/usr/…/stuff.h) [5s, 50%]") := by decide +kernel
example : displayActivity .unit (lit "Source") (.str (lit "hello world")) (lit " [5s, 50%]") 15
    = some (lit "Source(hel…rld)") := by decide +kernel
example : displayActivity .unit (lit "Source") .nothing (lit " [5s, 50%]") 4 = some [ellipsis] := by
  decide +kernel
-- the hypothesis on the name is needed: a nameless activity does not fit
example : displayActivity .unit [] .nothing (lit " [5s, 50%]") 4 = some (lit " [5s, 50%]") := by
  decide +kernel

/-- `print_flat_profile` (src/ui/stdio.rs 97-138): the printed lines, given the
hottest activities in order and the number of activities; `none` is a panic (the
subtraction at 121 overflows, in builds that check this, if there are less than two
columns). -/
inductive FlatLine where
  | entry (text : Text)
  | others (n : Nat)
  deriving DecidableEq

/-- See `FlatLine`. -/
def flatProfile (line : Nat → Nat → Option Text) (hottest : List Nat) (numActivities maxCols : Nat) :
    Option (List FlatLine) :=
  (hottest.mapM fun i =>
    if maxCols < 2 then none
    else (line i (maxCols - 2)).map fun t => .entry (lit "- " ++ t)).map fun entries =>
      entries ++ if hottest.length < numActivities then [.others (numActivities - hottest.length)] else []

/-- **C55**, flat profile: with at least three columns and lines that fit, nothing
panics, each of the hottest activities has one line, in order, and it fits in the
columns; and the number of activities that are not shown is printed unless it is
zero. -/
theorem flatProfile_spec (M : Metrics) (line : Nat → Nat → Option Text) (hottest : List Nat)
    (numActivities maxCols : Nat) (h3 : 3 ≤ maxCols)
    (hline : ∀ i ∈ hottest, ∀ c, 1 ≤ c → c ≤ maxCols → ∃ t, line i c = some t ∧ M.width t ≤ c) :
    ∃ texts : List Text,
      flatProfile line hottest numActivities maxCols =
        some (texts.map .entry ++
          if hottest.length < numActivities then [.others (numActivities - hottest.length)] else []) ∧
      List.Forall₂ (fun i text => ∃ t, line i (maxCols - 2) = some t ∧ text = lit "- " ++ t) hottest texts ∧
      ∀ text ∈ texts, M.width text ≤ maxCols := by
  have key : ∀ l : List Nat, (∀ i ∈ l, ∃ t, line i (maxCols - 2) = some t ∧ M.width t ≤ maxCols - 2) →
      ∃ texts : List Text, (l.mapM fun i =>
          if maxCols < 2 then none
          else (line i (maxCols - 2)).map fun t => FlatLine.entry (lit "- " ++ t)) = some (texts.map .entry) ∧
        List.Forall₂ (fun i text => ∃ t, line i (maxCols - 2) = some t ∧ text = lit "- " ++ t) l texts ∧
        ∀ text ∈ texts, M.width text ≤ maxCols := by
    intro l hl
    induction l with
    | nil => exact ⟨[], by simp, .nil, by simp⟩
    | cons i l ih =>
      obtain ⟨texts, h1, h2, h3'⟩ := ih fun j hj => hl j (List.mem_cons_of_mem _ hj)
      obtain ⟨t, ht, hw⟩ := hl i (by simp)
      refine ⟨(lit "- " ++ t) :: texts, ?_, .cons ⟨t, ht, rfl⟩ h2, ?_⟩
      · rw [List.mapM_cons, if_neg (by omega), ht, h1]
        rfl
      · intro text hm
        rcases List.mem_cons.1 hm with rfl | hm
        · rw [Metrics.width_append, Metrics.width_lit _ _ (by decide)]
          have : "- ".toList.length = 2 := rfl
          omega
        · exact h3' text hm
  obtain ⟨texts, h1, h2, h4⟩ := key hottest fun i hi => hline i hi _ (by omega) (by omega)
  refine ⟨texts, ?_, h2, h4⟩
  unfold flatProfile
  rw [h1]
  rfl

example : flatProfile (fun i c => some (lit "x")) [3, 1] 5 3 =
    some [.entry (lit "- x"), .entry (lit "- x"), .others 3] := by decide +kernel
example : flatProfile (fun i c => some (lit "x")) [3, 1] 5 1 = none := by decide +kernel

/-! ## Hierarchical profile (C56) -/

/-- What a node of the printed tree stands for. -/
inductive Label where
  | act (id : Nat)
  /-- "…n callee(s) below threshold…", or an ellipsis in its place -/
  | more (n : Nat)
  deriving DecidableEq

/-- `termtree::Tree<Box<str>>`. -/
inductive PTree where
  | node (label : Label) (text : Text) (kids : List PTree)

/-- Label of the root of a printed tree. -/
def PTree.label : PTree → Label
  | .node l _ _ => l

/-- What `hierarchical_profile_tree` uses: the direct children of activities, the
selection of hot activities, the display of an activity in a number of columns, and
the text of the terminator. -/
structure Prof where
  children : Nat → List Nat
  hot : List Nat → List Nat
  line : Nat → Nat → Option Text
  more : Nat → Text

/-- `hierarchical_profile_tree` (src/ui/stdio.rs 166-250); `none` is a panic.  The
glyphs of the palette are one column wide. -/
def hierTree (M : Metrics) (P : Prof) (cols root : Nat) : Option PTree :=
  match P.line root cols with
  | none => none
  | some text =>
    if h : cols - 1 - 1 = 0 then some (.node (.act root) text [])
    else
      let hottest := P.hot (P.children root)
      match hottest.mapM fun c => hierTree M P (cols - 1 - 1) c with
      | none => none
      | some kids =>
        if hottest.length = (P.children root).length then some (.node (.act root) text kids)
        else
          let n := (P.children root).length - hottest.length
          let terminator := if M.width (P.more n) > cols - 1 - 1 then [ellipsis] else P.more n
          some (.node (.act root) text (kids ++ [.node (.more n) terminator []]))
termination_by cols
decreasing_by omega

/-- `s` is the part of the printed tree `t` below one of its nodes at depth `k`. -/
inductive SubTree : PTree → Nat → PTree → Prop
  | root (t : PTree) : SubTree t 0 t
  | kid {l : Label} {text : Text} {kids : List PTree} {c s : PTree} {k : Nat} :
      c ∈ kids → SubTree c k s → SubTree (.node l text kids) (k + 1) s

/-- Activity `i` is `k` levels below activity `r`, through hot activities only. -/
inductive HotChain (P : Prof) (hotEnough : Nat → Bool) : Nat → Nat → Nat → Prop
  | refl (r : Nat) : HotChain P hotEnough r 0 r
  | step {r c k i : Nat} : c ∈ P.children r → hotEnough c = true → HotChain P hotEnough c k i →
      HotChain P hotEnough r (k + 1) i

theorem mapM_some {α β : Type} {f : α → Option β} {l : List α} {r : List β}
    (h : l.mapM f = some r) : List.Forall₂ (fun a b => f a = some b) l r := by
  induction l generalizing r with
  | nil => simp at h; subst h; exact .nil
  | cons a l ih =>
    rw [List.mapM_cons] at h
    cases hf : f a with
    | none => rw [hf] at h; cases h
    | some b =>
      cases hr : l.mapM f with
      | none => rw [hf, hr] at h; cases h
      | some r' =>
        rw [hf, hr] at h
        cases h
        exact .cons hf (ih hr)

theorem mapM_exists {α β : Type} {f : α → Option β} {l : List α}
    (h : ∀ a ∈ l, ∃ b, f a = some b) : ∃ r, l.mapM f = some r := by
  induction l with
  | nil => exact ⟨[], by simp⟩
  | cons a l ih =>
    obtain ⟨b, hb⟩ := h a (by simp)
    obtain ⟨r, hr⟩ := ih fun x hx => h x (List.mem_cons_of_mem _ hx)
    exact ⟨b :: r, by rw [List.mapM_cons, hb, hr]; rfl⟩

theorem forall₂_mem_right {α β : Type} {R : α → β → Prop} {l : List α} {r : List β}
    (h : List.Forall₂ R l r) {b : β} (hb : b ∈ r) : ∃ a ∈ l, R a b := by
  induction h with
  | nil => cases hb
  | cons h1 h2 ih =>
    rcases List.mem_cons.1 hb with rfl | hb
    · exact ⟨_, by simp, h1⟩
    · obtain ⟨a, ha, hr⟩ := ih hb
      exact ⟨a, by simp [ha], hr⟩

theorem forall₂_mem_left {α β : Type} {R : α → β → Prop} {l : List α} {r : List β}
    (h : List.Forall₂ R l r) {a : α} (ha : a ∈ l) : ∃ b ∈ r, R a b := by
  induction h with
  | nil => cases ha
  | cons h1 h2 ih =>
    rcases List.mem_cons.1 ha with rfl | ha
    · exact ⟨_, by simp, h1⟩
    · obtain ⟨b, hb, hr⟩ := ih ha
      exact ⟨b, by simp [hb], hr⟩

/-- The possible forms of a printed tree. -/
theorem hierTree_cases {M : Metrics} {P : Prof} {cols root : Nat} {t : PTree}
    (h : hierTree M P cols root = some t) :
    ∃ text, P.line root cols = some text ∧
      ((cols ≤ 2 ∧ t = .node (.act root) text []) ∨
       (3 ≤ cols ∧ ∃ kids, List.Forall₂ (fun c s => hierTree M P (cols - 2) c = some s)
          (P.hot (P.children root)) kids ∧
          (((P.hot (P.children root)).length = (P.children root).length ∧ t = .node (.act root) text kids) ∨
           ((P.hot (P.children root)).length ≠ (P.children root).length ∧
            t = .node (.act root) text (kids ++
              [.node (.more ((P.children root).length - (P.hot (P.children root)).length))
                (if M.width (P.more ((P.children root).length - (P.hot (P.children root)).length)) > cols - 2
                 then [ellipsis]
                 else P.more ((P.children root).length - (P.hot (P.children root)).length)) []]))))) := by
  rw [hierTree] at h
  split at h
  · cases h
  · rename_i text htext
    refine ⟨text, htext, ?_⟩
    split at h
    · rename_i hc
      cases h
      exact .inl ⟨by omega, rfl⟩
    · rename_i hc
      right
      refine ⟨by omega, ?_⟩
      simp only at h
      split at h
      · cases h
      · rename_i kids hkids
        refine ⟨kids, mapM_some hkids, ?_⟩
        split at h
        · rename_i hl
          cases h
          exact .inl ⟨hl, rfl⟩
        · rename_i hl
          cases h
          exact .inr ⟨hl, rfl⟩

/-- **C56 (no panic).** If the display of activities does not panic on positive widths,
the hierarchical profile does not panic on a positive width. -/
theorem hierTree_no_panic (M : Metrics) (P : Prof) (maxCols : Nat)
    (hline : ∀ i c, 1 ≤ c → c ≤ maxCols → ∃ t, P.line i c = some t)
    (cols : Nat) : 1 ≤ cols → cols ≤ maxCols → ∀ root, ∃ t, hierTree M P cols root = some t := by
  induction cols using Nat.strongRecOn with
  | _ cols ih =>
    intro h1 hle root
    rw [hierTree]
    obtain ⟨text, ht⟩ := hline root cols h1 hle
    rw [ht]
    simp only
    split
    · exact ⟨_, rfl⟩
    · rename_i hc
      obtain ⟨kids, hk⟩ := mapM_exists (f := fun c => hierTree M P (cols - 1 - 1) c)
        (l := P.hot (P.children root)) fun c _ => ih (cols - 1 - 1) (by omega) (by omega) (by omega) c
      rw [hk]
      simp only
      split <;> exact ⟨_, rfl⟩

/-- **C56 (contents).** The activities shown at depth `k` of the hierarchical profile are
exactly those `k` levels below the root through activities that are hot enough,
for all depths at which there are columns left. -/
theorem hierTree_shows (M : Metrics) (P : Prof) (hotEnough : Nat → Bool)
    (hhot : ∀ l, (P.hot l).Perm (l.filter hotEnough)) (cols : Nat) :
    ∀ root t, hierTree M P cols root = some t → ∀ k i,
      (∃ text kids, SubTree t k (.node (.act i) text kids)) ↔
        HotChain P hotEnough root k i ∧ (k = 0 ∨ 2 * k < cols) := by
  induction cols using Nat.strongRecOn with
  | _ cols ih =>
    intro root t ht k i
    obtain ⟨text, -, hc⟩ := hierTree_cases ht
    -- the subtrees of a node with given children
    have hmain : ∀ kids tail, 3 ≤ cols →
        List.Forall₂ (fun c s => hierTree M P (cols - 2) c = some s) (P.hot (P.children root)) kids →
        (∀ x ∈ tail, ∃ n tx, x = PTree.node (.more n) tx []) →
        ((∃ text' kids', SubTree (.node (.act root) text (kids ++ tail)) k (.node (.act i) text' kids')) ↔
          HotChain P hotEnough root k i ∧ (k = 0 ∨ 2 * k < cols)) := by
      intro kids tail h3 hk htail
      constructor
      · rintro ⟨text', kids', hs⟩
        cases hs with
        | root => exact ⟨.refl _, .inl rfl⟩
        | kid hm hs =>
          rename_i c k
          rcases List.mem_append.1 hm with hm | hm
          · obtain ⟨a, ha, hca⟩ := forall₂_mem_right hk hm
            obtain ⟨hch, hkk⟩ := (ih (cols - 2) (by omega) a c hca k i).1 ⟨_, _, hs⟩
            have hmem := List.mem_filter.1 ((hhot _).mem_iff.1 ha)
            exact ⟨.step hmem.1 hmem.2 hch, .inr (by omega)⟩
          · obtain ⟨n, tx, rfl⟩ := htail c hm
            cases hs with
            | kid hm' _ => cases hm'
      · rintro ⟨hch, hkk⟩
        cases hch with
        | refl => exact ⟨_, _, .root _⟩
        | step hc hh hch =>
          rename_i c k
          obtain ⟨s, hs, hcs⟩ := forall₂_mem_left hk ((hhot _).mem_iff.2 (List.mem_filter.2 ⟨hc, hh⟩))
          obtain ⟨text', kids', hsub⟩ := (ih (cols - 2) (by omega) c s hcs k i).2 ⟨hch, by omega⟩
          exact ⟨text', kids', .kid (List.mem_append_left _ hs) hsub⟩
    rcases hc with ⟨h2, rfl⟩ | ⟨h3, kids, hk, ⟨-, rfl⟩ | ⟨-, rfl⟩⟩
    · constructor
      · rintro ⟨text', kids', hs⟩
        cases hs with
        | root => exact ⟨.refl _, .inl rfl⟩
        | kid hm _ => cases hm
      · rintro ⟨hch, hkk⟩
        have : k = 0 := by omega
        subst this
        cases hch
        exact ⟨_, _, .root _⟩
    · have := hmain kids [] h3 hk (by simp)
      rwa [List.append_nil] at this
    · exact hmain kids _ h3 hk (by simp)

/-- **C56 (width).** If activities are displayed within the columns they are given, then
every text at depth `k` of the hierarchical profile takes at most the columns left
by `k` levels of indentation of two columns each. -/
theorem hierTree_fits (M : Metrics) (P : Prof) (maxCols : Nat)
    (hline : ∀ i c t, 1 ≤ c → c ≤ maxCols → P.line i c = some t → M.width t ≤ c) (cols : Nat) :
    1 ≤ cols → cols ≤ maxCols → ∀ root t, hierTree M P cols root = some t →
      ∀ k l text kids, SubTree t k (.node l text kids) → M.width text + 2 * k ≤ cols := by
  induction cols using Nat.strongRecOn with
  | _ cols ih =>
    intro h1 hle root t ht k l text' kids' hs
    obtain ⟨text, htext, hc⟩ := hierTree_cases ht
    have hw := hline _ _ _ h1 hle htext
    rcases hc with ⟨h2, rfl⟩ | ⟨h3, kids, hk, ⟨-, rfl⟩ | ⟨-, rfl⟩⟩
    · cases hs with
      | root => omega
      | kid hm _ => cases hm
    · cases hs with
      | root => omega
      | kid hm hs =>
        rename_i c k
        obtain ⟨a, _, hca⟩ := forall₂_mem_right hk hm
        have := ih (cols - 2) (by omega) (by omega) (by omega) a c hca k l text' kids' hs
        omega
    · cases hs with
      | root => omega
      | kid hm hs =>
        rename_i c k
        rcases List.mem_append.1 hm with hm | hm
        · obtain ⟨a, _, hca⟩ := forall₂_mem_right hk hm
          have := ih (cols - 2) (by omega) (by omega) (by omega) a c hca k l text' kids' hs
          omega
        · simp only [List.mem_singleton] at hm
          subst hm
          cases hs with
          | root =>
            split
            · simp; omega
            · omega
          | kid hm' _ => cases hm'

/-- **C56 (order and count).** Below each activity shown, wherever there are columns
left, come its hot direct children in the order of `hottest_activities`, and then,
unless there are none, one line for the others, with their number. -/
theorem hierTree_kids (M : Metrics) (P : Prof) (hotEnough : Nat → Bool)
    (hhot : ∀ l, (P.hot l).Perm (l.filter hotEnough)) (cols : Nat) :
    ∀ root t, hierTree M P cols root = some t → ∀ k i text kids, SubTree t k (.node (.act i) text kids) →
      kids.map PTree.label =
        if cols ≤ 2 * k + 2 then []
        else (P.hot (P.children i)).map .act ++
          if ((P.children i).filter fun c => !hotEnough c) = [] then []
          else [.more ((P.children i).filter fun c => !hotEnough c).length] := by
  induction cols using Nat.strongRecOn with
  | _ cols ih =>
    intro root t ht k i text' kids' hs
    obtain ⟨text, htext, hc⟩ := hierTree_cases ht
    have hlen : ∀ l : List Nat, (l.filter fun c => !hotEnough c).length = l.length - (P.hot l).length ∧
        (((l.filter fun c => !hotEnough c) = []) ↔ (P.hot l).length = l.length) := by
      intro l
      have h1 := (hhot l).length_eq
      have h2 : (l.filter hotEnough).length + (l.filter fun c => !hotEnough c).length = l.length := by
        clear h1 hs ht hc htext
        induction l with
        | nil => rfl
        | cons a l ihl => cases h : hotEnough a <;> simp [List.filter_cons, h] <;> omega
      refine ⟨by omega, ?_⟩
      rw [← List.length_eq_zero_iff]
      omega
    have hlab : ∀ kids, List.Forall₂ (fun c s => hierTree M P (cols - 2) c = some s)
        (P.hot (P.children root)) kids → kids.map PTree.label = (P.hot (P.children root)).map .act := by
      intro kids hk
      generalize P.hot (P.children root) = hl at hk
      clear ht hc hs
      induction hk with
      | nil => rfl
      | cons h1 h2 ihk =>
        obtain ⟨tx, -, hcc⟩ := hierTree_cases h1
        rw [List.map_cons, List.map_cons, ihk]
        congr 1
        rcases hcc with ⟨-, rfl⟩ | ⟨-, _, -, ⟨-, rfl⟩ | ⟨-, rfl⟩⟩ <;> rfl
    rcases hc with ⟨h2, rfl⟩ | ⟨h3, kids, hk, ⟨hl, rfl⟩ | ⟨hl, rfl⟩⟩
    · cases hs with
      | root => rw [if_pos (by omega)]; rfl
      | kid hm _ => cases hm
    · cases hs with
      | root =>
        rw [if_neg (show ¬ cols ≤ 2 * 0 + 2 by omega), hlab _ hk, if_pos ((hlen _).2.2 hl), List.append_nil]
      | kid hm hs =>
        rename_i c k
        obtain ⟨a, _, hca⟩ := forall₂_mem_right hk hm
        have := ih (cols - 2) (by omega) a c hca k i text' kids' hs
        rw [this]
        by_cases hcc : cols - 2 ≤ 2 * k + 2
        · rw [if_pos hcc, if_pos (show cols ≤ 2 * (k + 1) + 2 by omega)]
        · rw [if_neg hcc, if_neg (show ¬ cols ≤ 2 * (k + 1) + 2 by omega)]
    · cases hs with
      | root =>
        rw [if_neg (show ¬ cols ≤ 2 * 0 + 2 by omega), List.map_append, hlab kids hk, if_neg (fun h => hl ((hlen _).2.1 h)), (hlen _).1]
        rfl
      | kid hm hs =>
        rename_i c k
        rcases List.mem_append.1 hm with hm | hm
        · obtain ⟨a, _, hca⟩ := forall₂_mem_right hk hm
          have := ih (cols - 2) (by omega) a c hca k i text' kids' hs
          rw [this]
          by_cases hcc : cols - 2 ≤ 2 * k + 2
          · rw [if_pos hcc, if_pos (show cols ≤ 2 * (k + 1) + 2 by omega)]
          · rw [if_neg hcc, if_neg (show ¬ cols ≤ 2 * (k + 1) + 2 by omega)]
        · simp only [List.mem_singleton] at hm
          subst hm
          cases hs with
          | kid hm' _ => cases hm'

/-- The profile of a loaded trace (src/ui/stdio.rs 166-250): direct children from the
tree, activities displayed by `displayActivity`, and some `hottest_activities`. -/
def treeProf {T D α : Type} [LinearOrder T] [Zero D] [Add D] [Sub D] (M : Metrics) (t : ATree T D α)
    (hot : List Nat → List Nat) (name : Nat → Text) (arg : Nat → Arg) (trailer : Nat → Text)
    (more : Nat → Text) : Prof where
  children i := (directChildren t i).getD []
  hot := hot
  line i c := displayActivity M (name i) (arg i) (trailer i) c
  more := more

/-- Specification: activity `i` is `k` calls below activity `r` of a trace, through activities that are hot. -/
inductive HotPath {T D α : Type} [LinearOrder T] [Zero D] [Add D] [Sub D] (t : ATree T D α) (hot : Nat → Bool) :
    Nat → Nat → Nat → Prop
  | refl (r : Nat) : HotPath t hot r 0 r
  | step {r c k i : Nat} : Tree.IsChild t r c → hot c = true → HotPath t hot c k i → HotPath t hot r (k + 1) i

theorem hotPath_iff {T D α : Type} [LinearOrder T] [Zero D] [Add D] [Sub D] (M : Metrics) (t : ATree T D α)
    (hot : List Nat → List Nat) (name : Nat → Text) (arg : Nat → Arg) (trailer more : Nat → Text) (p : Nat → Bool)
    (r k i : Nat) : HotPath t p r k i ↔ HotChain (treeProf M t hot name arg trailer more) p r k i := by
  have hc : ∀ r c, c ∈ (treeProf M t hot name arg trailer more).children r ↔ Tree.IsChild t r c := by
    intro r c
    show c ∈ (directChildren t r).getD [] ↔ _
    unfold Tree.IsChild
    cases directChildren t r <;> simp
  constructor
  · intro h
    induction h with
    | refl r => exact .refl r
    | step h1 h2 _ ih => exact .step ((hc _ _).2 h1) h2 ih
  · intro h
    induction h with
    | refl r => exact .refl r
    | step h1 h2 _ ih => exact .step ((hc _ _).1 h1) h2 ih

/-- **C56**, for loaded traces: on every terminal with 1 to 65535 columns, the
hierarchical profile below any activity does not panic, shows exactly the
activities that are reached from it through hot direct children as long as columns
are left, and no line is too long. -/
theorem hierarchical_profile {T D α : Type} [LinearOrder T] [Zero D] [Add D] [Sub D] [LinearOrder D]
    (M : Metrics) (t : ATree T D α) (metric : Nat → Fl D) (threshold : Fl D) (hot : List Nat → List Nat)
    (hhot : ∀ l, HottestOut l metric threshold (.ok (hot l)))
    (name : Nat → Text) (arg : Nat → Arg) (trailer more : Nat → Text)
    (hwf : ∀ i, (arg i).WF) (hname : ∀ i, 1 ≤ M.width (name i)) (htr : ∀ i, M.width (trailer i) < 65536)
    (cols : Nat) (h1 : 1 ≤ cols) (h2 : cols < 65536) (root : Nat) :
    ∃ p, hierTree M (treeProf M t hot name arg trailer more) cols root = some p ∧
      (∀ k i, (∃ text kids, SubTree p k (.node (.act i) text kids)) ↔
        HotPath t (fun i => (metric i).ge threshold) root k i ∧ (k = 0 ∨ 2 * k < cols)) ∧
      (∀ k l text kids, SubTree p k (.node l text kids) → M.width text + 2 * k ≤ cols) ∧
      (∀ k i text kids, SubTree p k (.node (.act i) text kids) →
        displayActivity M (name i) (arg i) (trailer i) (cols - 2 * k) = some text) := by
  simp only [hotPath_iff M t hot name arg trailer more]
  have hperm : ∀ l, (hot l).Perm (l.filter fun i => (metric i).ge threshold) := by
    intro l
    obtain ⟨out, h, hp, -⟩ := hottest_spec l metric threshold _ (hhot l)
    cases h
    exact hp
  have hl : ∀ i c, 1 ≤ c → c ≤ cols →
      ∃ out, displayActivity M (name i) (arg i) (trailer i) c = some out ∧ M.width out ≤ c := by
    intro i c hc hc'
    obtain ⟨out, h, hw, -⟩ := displayActivity_spec M (name i) (arg i) (trailer i) c (hwf i) hc (by omega)
      (hname i) (htr i)
    exact ⟨out, h, hw⟩
  obtain ⟨p, hp⟩ := hierTree_no_panic M (treeProf M t hot name arg trailer more) cols
    (fun i c hc hc' => let ⟨o, h, _⟩ := hl i c hc hc'; ⟨o, h⟩) cols h1 (Nat.le_refl _) root
  refine ⟨p, hp, hierTree_shows M _ _ hperm cols root p hp, hierTree_fits M _ cols ?_ cols h1 (Nat.le_refl _) root p hp, ?_⟩
  · intro i c tx hc hc' htx
    obtain ⟨o, h, hw⟩ := hl i c hc hc'
    have : some o = some tx := by rw [← h]; exact htx
    cases this
    exact hw
  · clear hl h1 h2
    induction cols using Nat.strongRecOn generalizing root p with
    | _ cols ih =>
      intro k i text' kids' hs
      obtain ⟨text, htext, hc⟩ := hierTree_cases hp
      rcases hc with ⟨-, rfl⟩ | ⟨h3, kids, hk, ⟨-, rfl⟩ | ⟨-, rfl⟩⟩
      · cases hs with
        | root => exact htext
        | kid hm _ => cases hm
      · cases hs with
        | root => exact htext
        | kid hm hs =>
          rename_i c k
          obtain ⟨a, _, hca⟩ := forall₂_mem_right hk hm
          have := ih (cols - 2) (by omega) a c hca k i text' kids' hs
          rw [show cols - 2 * (k + 1) = cols - 2 - 2 * k by omega]
          exact this
      · cases hs with
        | root => exact htext
        | kid hm hs =>
          rename_i c k
          rcases List.mem_append.1 hm with hm | hm
          · obtain ⟨a, _, hca⟩ := forall₂_mem_right hk hm
            have := ih (cols - 2) (by omega) a c hca k i text' kids' hs
            rw [show cols - 2 * (k + 1) = cols - 2 - 2 * k by omega]
            exact this
          · simp only [List.mem_singleton] at hm
            subst hm
            cases hs with
            | kid hm' _ => cases hm'

/-- A small profile: activity 0 has children 1 (hot) and 2 (cold); 1 has child 3 (hot). -/
def exProf : Prof where
  children i := if i = 0 then [1, 2] else if i = 1 then [3] else []
  hot l := l.filter (· ≠ 2)
  line i c := some (lit "x")
  more n := lit "more"

-- non-vacuity
example : ∀ l, (exProf.hot l).Perm (l.filter fun i => decide (i ≠ 2)) := fun l => List.Perm.refl _
example : hierTree .unit exProf 5 0 = some (.node (.act 0) (lit "x")
    [.node (.act 1) (lit "x") [.node (.act 3) (lit "x") []], .node (.more 1) [ellipsis] []]) := by
  with_unfolding_all rfl

-- the hypothesis on `hot` can be met, for every metric and threshold
example {D : Type} [LinearOrder D] (metric : Nat → Fl D) (threshold : Fl D) :
    ∃ hot : List Nat → List Nat, ∀ l, HottestOut l metric threshold (.ok (hot l)) := by
  have h : ∀ l, ∃ out, HottestOut l metric threshold (.ok out) := by
    intro l
    obtain ⟨o, ho⟩ := hottest_exists l metric threshold
    obtain ⟨out, rfl, -⟩ := hottest_spec l metric threshold o ho
    exact ⟨out, ho⟩
  exact ⟨fun l => (h l).choose, fun l => (h l).choose_spec⟩

end Verif.Analysis
