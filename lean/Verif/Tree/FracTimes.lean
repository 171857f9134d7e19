/-
C93: activity times that are not whole microseconds. The tree computed with binary64 numbers, and how far its self-durations
are from exact ones.
-/
import Verif.Tree.F64

set_option autoImplicit false
set_option linter.unusedVariables false
set_option linter.unusedSimpArgs false
set_option linter.unusedSectionVars false

namespace Verif.Tree

variable {α : Type}

/-! ## Specification -/

/-- An activity as the program reads it from a trace: it starts and lasts a non-negative binary64 number of microseconds, and
its end is what the program computes (clang-time-trace/src/stats/activity/mod.rs 90-92). -/
def Timed (s : Stat F64 F64 α) : Prop :=
  0 ≤ s.start.val ∧ Binary64.Rep s.start.val ∧ 0 ≤ s.dur.val ∧ Binary64.Rep s.dur.val ∧ s.stop = s.start + s.dur

/-- Exact duration of an activity. -/
def exactDur (t : ATree F64 F64 α) (i : Nat) : ℚ := (((statOf t i).map (·.dur)).getD 0 : F64).val

/-- Self-duration that the program computes for an activity. -/
def floatSelf (t : ATree F64 F64 α) (i : Nat) : ℚ := ((selfDuration t i).getD 0).val

/-! ## Rounding -/

theorem rnd_err_abs {x : ℚ} {k : ℤ} (h : |x| < 2 ^ k) (hk : -1022 < k) : |Binary64.rnd x - x| ≤ 2 ^ (k - 54) := by
  rcases eq_or_ne x 0 with rfl | h0
  · rw [Binary64.rnd_zero, sub_zero, abs_zero]; exact (Binary64.pow_pos2 _).le
  refine le_trans (Binary64.rnd_err x) ?_
  have he : Binary64.expo x = Binary64.expo |x| := by rw [Binary64.expo, Binary64.expo, abs_abs]
  have h1 : (2 : ℚ) ^ Binary64.expo x ≤ 2 ^ (k - 53) := by
    rw [he]; exact zpow_le_zpow_right₀ (by norm_num) (Binary64.expo_lt (abs_pos.2 h0) h hk)
  have h2 : (2 : ℚ) ^ (k - 53) = 2 ^ (k - 54) * 2 := by
    rw [show k - 53 = (k - 54) + 1 by ring, zpow_add_one₀ (by norm_num)]
  linarith

theorem rnd_nonpos {x : ℚ} (hx : x ≤ 0) : Binary64.rnd x ≤ 0 := by
  have p := Binary64.pow_pos2 (Binary64.expo x)
  have := Binary64.rnd_le_mult (x := x) (z := 0) (by simpa using hx)
  simpa using this

theorem rep_pow2 {k : ℤ} (hk : -1022 < k) : Binary64.Rep ((2 : ℚ) ^ k) :=
  ⟨1, k, by norm_num, by omega, by simp⟩

section rounding
variable {k : ℤ} {ε : ℚ}

theorem pow_k {k : ℤ} : (2 : ℚ) ^ k = 2 ^ (53 : ℕ) * 2 ^ (k - 53) := by
  rw [show k = ((53 : ℕ) : ℤ) + (k - 53) by push_cast; ring, zpow_add₀ (by norm_num), zpow_natCast]
  norm_num

theorem pow_k1 {k : ℤ} : (2 : ℚ) ^ (k + 1) = 2 ^ (54 : ℕ) * 2 ^ (k - 53) := by
  rw [zpow_add_one₀ (by norm_num), pow_k]; ring

theorem pow_half {k : ℤ} : (2 : ℚ) ^ (k - 54) = 2 ^ (k - 53) / 2 := by
  rw [show k - 53 = (k - 54) + 1 by ring, zpow_add_one₀ (by norm_num)]; ring

theorem err_small (hk : -1022 < k) {x : ℚ} (h : |x| < 2 ^ (53 : ℕ) * 2 ^ (k - 53)) : |Binary64.rnd x - x| ≤ 2 ^ (k - 53) / 2 := by
  rw [← pow_k] at h
  rw [← pow_half]; exact rnd_err_abs h hk

theorem err_large (hk : -1022 < k) {x : ℚ} (h : |x| < 2 ^ (54 : ℕ) * 2 ^ (k - 53)) : |Binary64.rnd x - x| ≤ 2 ^ (k - 53) := by
  rw [← pow_k1] at h
  have := rnd_err_abs h (by omega)
  rwa [show k + 1 - 54 = k - 53 by ring] at this

/-- Rounded sums of few numbers. -/
theorem fold_err (hk : -1022 < k) {ι : Type} (g : ι → F64) (cs : List ι) : ∀ (m : ℕ) (a : ℚ) (acc : F64),
    0 ≤ acc.val → |acc.val - a| ≤ m * 2 ^ (k - 53) → (∀ c ∈ cs, 0 ≤ (g c).val) →
    a + (cs.map fun c => (g c).val).sum + (m + cs.length) * 2 ^ (k - 53) < 2 ^ (54 : ℕ) * 2 ^ (k - 53) →
    0 ≤ (cs.foldl (fun d c => d + g c) acc).val ∧
      |(cs.foldl (fun d c => d + g c) acc).val - (a + (cs.map fun c => (g c).val).sum)| ≤ (m + cs.length) * 2 ^ (k - 53) := by
  have hε := Binary64.pow_pos2 (k - 53)
  have err := fun x => err_large (k := k) hk (x := x)
  generalize (2 : ℚ) ^ (k - 53) = ε at *
  induction cs with
  | nil => intro m a acc h0 h1 _ _; exact ⟨h0, by simpa using h1⟩
  | cons c cs ih =>
    intro m a acc h0 h1 hg hb
    have hd := hg c (by simp)
    rw [List.map_cons, List.sum_cons, List.length_cons] at hb ⊢
    push_cast at hb ⊢
    have hnn : 0 ≤ (cs.map fun c => (g c).val).sum := by
      apply List.sum_nonneg
      intro x hx
      obtain ⟨c', hc', rfl⟩ := List.mem_map.1 hx
      exact hg c' (by simp [hc'])
    have hl : (0 : ℚ) ≤ cs.length * ε := by positivity
    have h2 := abs_le.1 h1
    have hx : |acc.val + (g c).val| < 2 ^ (54 : ℕ) * ε := by
      rw [abs_of_nonneg (by linarith)]; nlinarith
    have h3 := abs_le.1 (err _ hx)
    have hv : (acc + g c).val = Binary64.rnd (acc.val + (g c).val) := rfl
    obtain ⟨h4, h5⟩ := ih (m + 1) (a + (g c).val) (acc + g c) (by rw [hv]; exact Binary64.rnd_nonneg (by linarith))
      (by rw [hv, abs_le]; push_cast; constructor <;> linarith)
      (fun c' hc' => hg c' (by simp [hc'])) (by push_cast; linarith)
    refine ⟨h4, ?_⟩
    rw [List.foldl_cons]
    push_cast at h5
    have e1 : a + ((g c).val + (cs.map fun c => (g c).val).sum) = a + (g c).val + (cs.map fun c => (g c).val).sum := by ring
    have e2 : ((m : ℚ) + (cs.length + 1)) * ε = (m + 1 + cs.length) * ε := by ring
    rw [e1, e2]; exact h5

end rounding

/-! ## Trees of the same shape -/

/-- The same activity with another duration, and exact times. -/
def Stat.weigh (w : Stat F64 F64 α → ℚ) (s : Stat F64 F64 α) : Stat ℚ ℚ α := ⟨s.act, s.start.val, s.stop.val, w s⟩

/-- The place of a node in the tree. -/
def Node.shape {T D : Type} (n : Node T D α) : Nat × Nat × Nat := (n.first, n.chLo, n.chHi)

/-- The tree does not depend on the durations. -/
theorem same_shape (w : Stat F64 F64 α → ℚ) {tmin : F64} {xs : List (Stat F64 F64 α)} {t : ATree F64 F64 α} (h : load tmin xs = .ok t) :
    ∃ t', load tmin.val (xs.map (Stat.weigh w)) = .ok t' ∧ (∀ i, directChildren t i = directChildren t' i) ∧
      (∀ i, allChildren t i = allChildren t' i) ∧ rootActivities t = rootActivities t' := by
  let e1 : F64 → PUnit := fun _ => PUnit.unit
  let e2 : ℚ → PUnit := fun _ => PUnit.unit
  have H1 : Hom e1 := ⟨rfl, fun _ _ => rfl, fun _ _ => rfl⟩
  have H2 : Hom e2 := ⟨rfl, fun _ _ => rfl, fun _ _ => rfl⟩
  have L1 := load_mapTD (g := F64.val) (fun a b => Iff.rfl) H1 tmin xs
  have L2 := load_mapTD (g := (id : ℚ → ℚ)) (fun a b => Iff.rfl) H2 tmin.val (xs.map (Stat.weigh w))
  have hxs : (xs.map (Stat.weigh w)).map (Stat.mapTD id e2) = xs.map (Stat.mapTD F64.val e1) := by
    rw [List.map_map]; rfl
  rw [hxs] at L2
  have L3 : load (id tmin.val) (xs.map (Stat.mapTD F64.val e1)) = load tmin.val (xs.map (Stat.mapTD F64.val e1)) := rfl
  rw [L3, L1, h] at L2
  obtain ⟨t', h', hsh⟩ : ∃ t', load tmin.val (xs.map (Stat.weigh w)) = .ok t' ∧ t.mapTD F64.val e1 = t'.mapTD id e2 := by
    cases hl : load tmin.val (xs.map (Stat.weigh w)) with
    | error e => rw [hl] at L2; simp [mapRes] at L2
    | ok t' => rw [hl] at L2; simp only [mapRes, Except.ok.injEq] at L2; exact ⟨t', rfl, L2⟩
  have hacts := congrArg ATree.acts hsh
  have hch : t.children = t'.children := congrArg ATree.children hsh
  simp only [ATree.mapTD] at hacts
  have hl : t.acts.length = t'.acts.length := by simpa using congrArg List.length hacts
  have hnode : ∀ i : Nat, (t.acts[i]?).map Node.shape = (t'.acts[i]?).map Node.shape := by
    intro i
    have h1 := congrArg (fun l => l[i]?) hacts
    simp only [List.getElem?_map] at h1
    have h2 := congrArg (Option.map (Node.shape (T := ℚ) (D := PUnit))) h1
    simp only [Option.map_map] at h2
    exact h2
  have hfr : t.firstRoot = t'.firstRoot := congrArg ATree.firstRoot hsh
  refine ⟨t', h', fun i => ?_, fun i => ?_, ?_⟩
  · have := hnode i
    cases ha : t.acts[i]? with
    | none =>
      cases hb : t'.acts[i]? with
      | none => simp only [directChildren, ha, hb]
      | some n => rw [ha, hb] at this; simp at this
    | some n =>
      cases hb : t'.acts[i]? with
      | none => rw [ha, hb] at this; simp at this
      | some n' =>
        rw [ha, hb] at this
        simp only [Option.map_some, Option.some.injEq, Node.shape, Prod.mk.injEq] at this
        simp only [directChildren, hierarchyIter, ha, hb, this.2.1, this.2.2, hch, hl]
  · have := hnode i
    cases ha : t.acts[i]? with
    | none =>
      cases hb : t'.acts[i]? with
      | none => simp only [allChildren, ha, hb]
      | some n => rw [ha, hb] at this; simp at this
    | some n =>
      cases hb : t'.acts[i]? with
      | none => rw [ha, hb] at this; simp at this
      | some n' =>
        rw [ha, hb] at this
        simp only [Option.map_some, Option.some.injEq, Node.shape, Prod.mk.injEq] at this
        have hs : (slice t.acts n.first i).map List.length = (slice t'.acts n'.first i).map List.length := by
          rw [slice, slice, this.1, hl]
          split <;> simp [hl]
        simp only [allChildren, ha, hb, this.1]
        rw [this.1] at hs
        cases hx : slice t.acts n'.first i with
        | none =>
          cases hy : slice t'.acts n'.first i with
          | none => rfl
          | some l => rw [hx, hy] at hs; simp at hs
        | some l =>
          cases hy : slice t'.acts n'.first i with
          | none => rw [hx, hy] at hs; simp at hs
          | some l' =>
            rw [hx, hy] at hs
            simp only [Option.map_some, Option.some.injEq] at hs
            simp only [hs]
  · simp only [rootActivities, hierarchyIter, hch, hl, hfr]

/-! ## Error of the self-durations -/

section main
variable {tmin : F64} {xs : List (Stat F64 F64 α)} {t : ATree F64 F64 α}

theorem exactDur_of (h : load tmin xs = .ok t) (i : Nat) : exactDur t i = (((xs[i]?).map (·.dur)).getD 0 : F64).val := by
  rw [exactDur, (c01_contents h).2]

theorem dur_nonneg (hx : ∀ a ∈ xs, Timed a) (h : load tmin xs = .ok t) (i : Nat) : 0 ≤ exactDur t i := by
  rw [exactDur_of h]
  cases ha : xs[i]? with
  | none => exact le_refl (0 : ℚ)
  | some a => exact (hx a (List.mem_of_getElem? ha)).2.2.1

/-- **C93.** No activity is given a self-duration above its duration. -/
theorem c93_self_le_duration (hx : ∀ a ∈ xs, Timed a) (h : load tmin xs = .ok t) {i : Nat} (hi : i < xs.length) :
    ∃ s d, statOf t i = some s ∧ selfDuration t i = some d ∧ d ≤ s.dur := by
  obtain ⟨s, cs, h1, h2, h3⟩ := c05_self_duration h hi
  refine ⟨s, _, h1, h3, ?_⟩
  have hs : s ∈ xs := List.mem_of_getElem? ((c01_contents h).2 i ▸ h1)
  obtain ⟨-, -, hd, hr, -⟩ := hx s hs
  have hf : ∀ (cs : List Nat) (acc : F64), 0 ≤ acc.val →
      0 ≤ (cs.foldl (fun d c => d + ((statOf t c).map (·.dur)).getD 0) acc).val := by
    intro cs
    induction cs with
    | nil => intro acc h; exact h
    | cons c cs ih =>
      intro acc ha
      refine ih _ ?_
      exact Binary64.rnd_nonneg (add_nonneg ha (dur_nonneg hx h c))
  have h0 := hf cs 0 (le_refl (0 : ℚ))
  rw [F64.le_iff]
  show Binary64.rnd (s.dur.val - _) ≤ s.dur.val
  generalize (cs.foldl (fun d c => d + ((statOf t c).map (·.dur)).getD 0) (0 : F64)).val = S at h0
  by_cases hS : S ≤ s.dur.val
  · calc Binary64.rnd (s.dur.val - S) ≤ Binary64.rnd s.dur.val := Binary64.rnd_mono (by linarith) (by linarith)
      _ = s.dur.val := Binary64.rnd_rep hd hr
  · exact (rnd_nonpos (by linarith)).trans hd

/-- The end of an activity is close to what it should be. -/
theorem stop_err {k : ℤ} (hk : -1022 < k) {s : Stat F64 F64 α} (hs : Timed s) (hb : s.stop.val < 2 ^ k) :
    |s.stop.val - (s.start.val + s.dur.val)| ≤ 2 ^ (k - 53) / 2 ∧ s.start.val ≤ s.stop.val ∧ s.dur.val < 2 ^ k := by
  obtain ⟨h1, h2, h3, h4, h5⟩ := hs
  have hv : s.stop.val = Binary64.rnd (s.start.val + s.dur.val) := by rw [h5]; rfl
  have hlt : s.start.val + s.dur.val < 2 ^ k := by
    by_contra hc
    rw [not_lt] at hc
    have := Binary64.rnd_mono (Binary64.pow_pos2 k).le hc
    rw [Binary64.rnd_rep (Binary64.pow_pos2 k).le (rep_pow2 hk), ← hv] at this
    linarith
  refine ⟨?_, ?_, by linarith⟩
  · rw [hv, ← pow_half]
    exact rnd_err_abs (by rw [abs_of_nonneg (by linarith)]; exact hlt) hk
  · rw [hv]
    calc s.start.val = Binary64.rnd s.start.val := (Binary64.rnd_rep h1 h2).symm
      _ ≤ _ := Binary64.rnd_mono h1 (by linarith)

/-- The durations of the children of an activity hardly exceed its own. -/
theorem children_dur {k : ℤ} (hk : -1022 < k) (hx : ∀ a ∈ xs, Timed a) (hb : ∀ a ∈ xs, a.stop.val < 2 ^ k) (h : load tmin xs = .ok t)
    {i : Nat} (hi : i < xs.length) {cs : List Nat} (hc : directChildren t i = some cs) :
    (cs.map (exactDur t)).sum ≤ exactDur t i + (cs.length + 1) * (2 ^ (k - 53) / 2) := by
  obtain ⟨t', h', hdc, -, -⟩ := same_shape (fun s => s.stop.val - s.start.val) h
  obtain ⟨d, hd, h0⟩ := c05_self_nonneg h' (by
      intro a ha
      obtain ⟨b, hb', rfl⟩ := List.mem_map.1 ha
      simp only [Stat.weigh]; ring)
    (by
      intro a ha
      obtain ⟨b, hb', rfl⟩ := List.mem_map.1 ha
      have := (stop_err hk (hx b hb') (hb b hb')).2.1
      simp only [Stat.weigh]; linarith) (i := i) (by simpa using hi)
  obtain ⟨s, cs', hs, hc', hd'⟩ := c05_self_duration h' (i := i) (by simpa using hi)
  rw [hd, Option.some.injEq] at hd'
  rw [← hdc, hc, Option.some.injEq] at hc'
  subst hc'
  rw [foldl_sum, zero_add] at hd'
  rw [hd'] at h0
  have hst : ∀ j, statOf t' j = (xs[j]?).map (Stat.weigh fun s => s.stop.val - s.start.val) := by
    intro j; rw [(c01_contents h').2, List.getElem?_map]
  have hnear : ∀ j, |exactDur t j - ((statOf t' j).map (·.dur)).getD 0| ≤ 2 ^ (k - 53) / 2 := by
    intro j
    rw [hst, exactDur_of h]
    cases ha : xs[j]? with
    | none =>
      show |(0 : ℚ) - 0| ≤ _
      rw [sub_zero, abs_zero]; have := Binary64.pow_pos2 (k - 53); linarith
    | some a =>
      have hm := List.mem_of_getElem? ha
      have := (stop_err hk (hx a hm) (hb a hm)).1
      show |a.dur.val - (a.stop.val - a.start.val)| ≤ _
      rw [abs_le] at this ⊢
      constructor <;> linarith
  have hsum : ∀ l : List Nat, (l.map (exactDur t)).sum ≤ (l.map fun c => ((statOf t' c).map (·.dur)).getD 0).sum + l.length * (2 ^ (k - 53) / 2) := by
    intro l
    induction l with
    | nil => simp
    | cons c l ih =>
      rw [List.map_cons, List.map_cons, List.sum_cons, List.sum_cons, List.length_cons]
      push_cast
      have := (abs_le.1 (hnear c)).2
      linarith
  have h1 := hsum cs
  have h2 := (abs_le.1 (hnear i)).1
  rw [hs] at h2
  simp only [Option.map_some, Option.getD_some] at h2
  linarith

/-- The sum that the program computes of the durations of some activities. -/
def childrenFloat (t : ATree F64 F64 α) (cs : List Nat) : F64 :=
  cs.foldl (fun d c => d + ((statOf t c).map (·.dur)).getD 0) 0

theorem childrenFloat_err {k : ℤ} (hk : -1022 < k) (h0 : ∀ i, 0 ≤ exactDur t i) (cs : List Nat)
    (hb : (cs.map (exactDur t)).sum + cs.length * 2 ^ (k - 53) < 2 ^ (54 : ℕ) * 2 ^ (k - 53)) :
    0 ≤ (childrenFloat t cs).val ∧ |(childrenFloat t cs).val - (cs.map (exactDur t)).sum| ≤ cs.length * 2 ^ (k - 53) := by
  have hz : (0 : F64).val = 0 := rfl
  have := fold_err hk (fun c : Nat => (((statOf t c).map (fun s : Stat F64 F64 α => s.dur)).getD 0 : F64)) cs 0 0 0 (le_refl (0 : ℚ)) (by
    rw [hz, sub_zero, abs_zero, Nat.cast_zero, zero_mul]) (fun c _ => h0 c)
  simp only [Nat.cast_zero, zero_add] at this
  exact this hb

theorem self_arith {rnd : ℚ → ℚ} {D S F n ε : ℚ} (hε : 0 < ε) (err : ∀ x : ℚ, |x| < 2 ^ (54 : ℕ) * ε → |rnd x - x| ≤ ε)
    (hn : n ≤ 2 ^ (50 : ℕ)) (hn0 : 0 ≤ n) (hS : S ≤ D + (n + 1) * (ε / 2)) (hD : D < 2 ^ (53 : ℕ) * ε) (hD0 : 0 ≤ D) (hS0 : 0 ≤ S)
    (hF : S + n * ε < 2 ^ (54 : ℕ) * ε → 0 ≤ F ∧ |F - S| ≤ n * ε) :
    |rnd (D - F) - (D - S)| ≤ (n + 1) * ε ∧ -(2 * (n + 1) * ε) ≤ rnd (D - F) := by
  have hnε : n * ε ≤ 2 ^ (50 : ℕ) * ε := mul_le_mul_of_nonneg_right hn hε.le
  have hnε0 : 0 ≤ n * ε := mul_nonneg hn0 hε.le
  norm_num at hnε hD hF err
  obtain ⟨hF0, hF⟩ := hF (by linarith)
  have hF := abs_le.1 hF
  have h5 := abs_le.1 (err (D - F) (by rw [abs_lt]; constructor <;> linarith))
  constructor
  · rw [abs_le]; constructor <;> linarith
  · linarith

/-- The self-duration that the program computes for an activity with `n` direct children is within `(n + 1) * 2^(k - 53)`
of its duration minus theirs, if all activities end before `2^k` microseconds; and it is no less than `-2 * (n + 1) * 2^(k - 53)`. -/
theorem self_error {k : ℤ} (hk : -1022 < k) (hx : ∀ a ∈ xs, Timed a) (hb : ∀ a ∈ xs, a.stop.val < 2 ^ k) (h : load tmin xs = .ok t)
    {i : Nat} (hi : i < xs.length) {cs : List Nat} (hc : directChildren t i = some cs) (hn : cs.length ≤ 2 ^ 50) :
    |floatSelf t i - (exactDur t i - (cs.map (exactDur t)).sum)| ≤ (cs.length + 1) * 2 ^ (k - 53) ∧
      -(2 * (cs.length + 1) * 2 ^ (k - 53)) ≤ floatSelf t i := by
  obtain ⟨s, cs', h1, h2, h3⟩ := c05_self_duration h hi
  rw [hc, Option.some.injEq] at h2
  subst h2
  have hS := children_dur hk hx hb h hi hc
  have hs : s ∈ xs := List.mem_of_getElem? ((c01_contents h).2 i ▸ h1)
  have hd : exactDur t i = s.dur.val := by rw [exactDur, h1]; rfl
  have hd0 := dur_nonneg hx h i
  have hlt : s.dur.val < 2 ^ k := (stop_err hk (hx s hs) (hb s hs)).2.2
  rw [pow_k, ← hd] at hlt
  have hSpos : 0 ≤ (cs.map (exactDur t)).sum := by
    apply List.sum_nonneg
    intro x hx'
    obtain ⟨c, -, rfl⟩ := List.mem_map.1 hx'
    exact dur_nonneg hx h c
  have hn' : (cs.length : ℚ) ≤ 2 ^ (50 : ℕ) := by exact_mod_cast hn
  have hfl : floatSelf t i = Binary64.rnd (exactDur t i - (childrenFloat t cs).val) := by
    rw [floatSelf, h3, hd]; rfl
  rw [hfl]
  exact self_arith (Binary64.pow_pos2 (k - 53)) (fun x => err_large (k := k) hk (x := x)) hn' (by positivity) hS hlt hd0 hSpos
    (childrenFloat_err hk (fun c => dur_nonneg hx h c) cs)

theorem allChildren_lt {T D : Type} {t : ATree T D α} {i : Nat} {l : List Nat} (h : allChildren t i = some l) : ∀ j ∈ l, j < i := by
  intro j hj
  rw [allChildren] at h
  cases hn : t.acts[i]? with
  | none => rw [hn] at h; cases h
  | some nd =>
    rw [hn] at h
    simp only [slice] at h
    split at h
    · cases h
    · rename_i l' hs
      split at hs
      · rename_i hle
        cases hs
        cases h
        obtain ⟨m, hm, rfl⟩ := List.mem_map.1 hj
        rw [List.mem_range, List.length_drop, List.length_take] at hm
        omega
      · cases hs

theorem children_lt {T D : Type} [LinearOrder T] [Zero D] [Add D] [Sub D] {tmin : T} {xs : List (Stat T D α)} {t : ATree T D α} (h : load tmin xs = .ok t) {i : Nat} {cs : List Nat}
    (hc : directChildren t i = some cs) : ∀ c ∈ cs, c < xs.length := by
  intro c hcs
  obtain ⟨ps, s, -, h2, -⟩ := c03_nested h ⟨cs, hc, hcs⟩
  rw [(c01_contents h).2] at h2
  exact (List.getElem?_eq_some_iff.1 h2).1

theorem children_length {T D : Type} [LinearOrder T] [Zero D] [Add D] [Sub D] {tmin : T} {xs : List (Stat T D α)} {t : ATree T D α} (h : load tmin xs = .ok t) {i : Nat} {cs : List Nat}
    (hc : directChildren t i = some cs) : cs.length ≤ xs.length := by
  obtain ⟨roots, ch, h1, h2, h3⟩ := c01_forest h
  have ha := (c01_contents h).1
  have hi : i ∈ allActivities t := by
    rw [allActivities, List.mem_range]
    by_contra hlt
    have : t.acts[i]? = none := by simp; omega
    simp [directChildren, this] at hc
  have := h2 i hi
  rw [hc, Option.some.injEq] at this
  subst this
  have hl := h3.length_eq
  rw [List.length_append, List.length_flatMap] at hl
  have h4 : (ch i).length ≤ ((allActivities t).map fun a => (ch a).length).sum := by
    exact List.single_le_sum (by simp) _ (List.mem_map.2 ⟨i, hi, rfl⟩)
  rw [ha, List.length_range] at hl
  rw [ha] at h4
  omega

/-- **C93.** The self-duration that the program computes for an activity with `n` direct children is within `(n + 1) * 2^(k - 53)`
of its duration minus theirs, if all activities end before `2^k` microseconds; and it is no less than `-2 * (n + 1) * 2^(k - 53)`. -/
theorem c93_self_error {k : ℤ} (hk : -1022 < k) (hx : ∀ a ∈ xs, Timed a) (hb : ∀ a ∈ xs, a.stop.val < 2 ^ k) (h : load tmin xs = .ok t)
    (hlen : xs.length ≤ 2 ^ 50) {i : Nat} (hi : i < xs.length) :
    ∃ cs, directChildren t i = some cs ∧
      |floatSelf t i - (exactDur t i - (cs.map (exactDur t)).sum)| ≤ (cs.length + 1) * 2 ^ (k - 53) ∧
      -(2 * (cs.length + 1) * 2 ^ (k - 53)) ≤ floatSelf t i := by
  obtain ⟨s, cs, -, hc, -⟩ := c05_self_duration h hi
  exact ⟨cs, hc, self_error hk hx hb h hi hc ((children_length h hc).trans hlen)⟩

/-- The trees of exact durations, and of durations of one. -/
theorem sum_error {k : ℤ} (hk : -1022 < k) (hx : ∀ a ∈ xs, Timed a) (hb : ∀ a ∈ xs, a.stop.val < 2 ^ k) (h : load tmin xs = .ok t)
    (hlen : xs.length ≤ 2 ^ 50) :
    ∃ t' t1, load tmin.val (xs.map (Stat.weigh fun s => s.dur.val)) = .ok t' ∧ load tmin.val (xs.map (Stat.weigh fun _ => (1 : ℚ))) = .ok t1 ∧
      (∀ i, allChildren t i = allChildren t' i) ∧ (∀ i, allChildren t i = allChildren t1 i) ∧
      rootActivities t = rootActivities t' ∧ rootActivities t = rootActivities t1 ∧
      (∀ j, ((statOf t' j).map (·.dur)).getD 0 = exactDur t j) ∧
      (∀ j, j < xs.length → ((statOf t1 j).map (·.dur)).getD 0 = 1) ∧
      (∀ j, j < xs.length → ∃ cs, directChildren t j = some cs ∧ cs.length ≤ 2 ^ 50 ∧
        (selfDuration t' j).getD 0 = exactDur t j - (cs.map (exactDur t)).sum ∧ (selfDuration t1 j).getD 0 = 1 - (cs.length : ℚ)) ∧
      ∀ L : List Nat, (∀ j ∈ L, j < xs.length) →
        |(L.map (floatSelf t)).sum - total (selfDuration t') L| ≤ (2 * L.length - total (selfDuration t1) L) * 2 ^ (k - 53) := by
  obtain ⟨t', h', hdc, hac, hro⟩ := same_shape (fun s => s.dur.val) h
  obtain ⟨t1, h1, hdc1, hac1, hro1⟩ := same_shape (fun _ => (1 : ℚ)) h
  have hst : ∀ j, statOf t' j = (xs[j]?).map (Stat.weigh fun s => s.dur.val) := by
    intro j; rw [(c01_contents h').2, List.getElem?_map]
  have hst1 : ∀ j, statOf t1 j = (xs[j]?).map (Stat.weigh fun _ => (1 : ℚ)) := by
    intro j; rw [(c01_contents h1).2, List.getElem?_map]
  have hdur : ∀ j, ((statOf t' j).map (·.dur)).getD 0 = exactDur t j := by
    intro j
    rw [hst, exactDur_of h]
    cases xs[j]? <;> rfl
  have hone : ∀ j, j < xs.length → ((statOf t1 j).map (·.dur)).getD 0 = 1 := by
    intro j hj
    rw [hst1, List.getElem?_eq_getElem hj]; rfl
  have hch : ∀ j, j < xs.length → ∃ cs, directChildren t j = some cs ∧ cs.length ≤ 2 ^ 50 ∧
      (selfDuration t' j).getD 0 = exactDur t j - (cs.map (exactDur t)).sum ∧ (selfDuration t1 j).getD 0 = 1 - (cs.length : ℚ) := by
    intro j hj
    obtain ⟨s0, cs, a1, a2, a3⟩ := c05_self_duration h hj
    obtain ⟨s1, cs1, b1, b2, b3⟩ := c05_self_duration h' (i := j) (by simpa using hj)
    obtain ⟨s2, cs2, d1, d2, d3⟩ := c05_self_duration h1 (i := j) (by simpa using hj)
    rw [← hdc, a2, Option.some.injEq] at b2
    rw [← hdc1, a2, Option.some.injEq] at d2
    subst b2 d2
    have hcs := children_lt h a2
    refine ⟨cs, a2, (children_length h a2).trans hlen, ?_, ?_⟩
    · have e := hdur j
      rw [b1] at e
      simp only [Option.map_some, Option.getD_some] at e
      rw [b3, Option.getD_some, foldl_sum, zero_add, e]
      congr 2
      exact List.map_congr_left fun c _ => hdur c
    · have e := hone j hj
      rw [d1] at e
      simp only [Option.map_some, Option.getD_some] at e
      rw [d3, Option.getD_some, foldl_sum, zero_add, e]
      congr 1
      rw [List.map_congr_left fun c hc => hone c (hcs c hc)]
      simp
  have key : ∀ L : List Nat, (∀ j ∈ L, j < xs.length) →
      |(L.map (floatSelf t)).sum - total (selfDuration t') L| ≤ (2 * L.length - total (selfDuration t1) L) * 2 ^ (k - 53) := by
    intro L
    induction L with
    | nil => intro _; simp [total]
    | cons j L ih =>
      intro hL
      have h2 := ih fun j' h' => hL j' (by simp [h'])
      obtain ⟨cs, h3, h4, h5, h6⟩ := hch j (hL j (by simp))
      have h7 := (self_error hk hx hb h (hL j (by simp)) h3 h4).1
      rw [← h5] at h7
      have e : (cs.length : ℚ) = 1 - (selfDuration t1 j).getD 0 := by rw [h6]; ring
      rw [e] at h7
      simp only [total, List.map_cons, List.sum_cons, List.length_cons] at h2 ⊢
      push_cast
      rw [abs_le] at h2 h7 ⊢
      constructor <;> linarith
  exact ⟨t', t1, h', h1, hac, hac1, hro, hro1, hdur, hone, hch, key⟩

/-- **C93.** So the self-durations of an activity and of all its descendants, `N` in number, add up to its duration within
`2 * N * 2^(k - 53)`. -/
theorem c93_subtree_error {k : ℤ} (hk : -1022 < k) (hx : ∀ a ∈ xs, Timed a) (hb : ∀ a ∈ xs, a.stop.val < 2 ^ k) (h : load tmin xs = .ok t)
    (hlen : xs.length ≤ 2 ^ 50) {i : Nat} (hi : i < xs.length) :
    ∃ l, allChildren t i = some l ∧
      |((i :: l).map (floatSelf t)).sum - exactDur t i| ≤ 2 * (l.length + 1) * 2 ^ (k - 53) := by
  obtain ⟨t', t1, h', h1, hac, hac1, -, -, hdur, hone, -, key⟩ := sum_error hk hx hb h hlen
  obtain ⟨l, hl, hsum⟩ := c05_subtree_sum h' (i := i) (by simpa using hi)
  obtain ⟨l1, hl1, hsum1⟩ := c05_subtree_sum h1 (i := i) (by simpa using hi)
  rw [← hac] at hl
  rw [← hac1, hl, Option.some.injEq] at hl1
  subst hl1
  refine ⟨l, hl, ?_⟩
  have hin : ∀ j ∈ i :: l, j < xs.length := by
    intro j hj
    rcases List.mem_cons.1 hj with rfl | hj
    · exact hi
    · exact (allChildren_lt hl j hj).trans hi
  have h8 := key (i :: l) hin
  have h9 : total (selfDuration t') (i :: l) = exactDur t i := by
    have := congrArg (fun o => Option.getD o 0) hsum
    simp only [Option.getD_some] at this
    rw [← this]; exact hdur i
  have h10 : total (selfDuration t1) (i :: l) = 1 := by
    have := congrArg (fun o => Option.getD o 0) hsum1
    simp only [Option.getD_some] at this
    rw [← this]; exact hone i hi
  rw [h9, h10] at h8
  refine h8.trans ?_
  have := Binary64.pow_pos2 (k - 53)
  rw [List.length_cons]
  push_cast
  nlinarith

/-- **C93.** And all self-durations of a trace add up to the durations of its root activities within `2 * N * 2^(k - 53)`, for `N`
activities. -/
theorem c93_total_error {k : ℤ} (hk : -1022 < k) (hx : ∀ a ∈ xs, Timed a) (hb : ∀ a ∈ xs, a.stop.val < 2 ^ k) (h : load tmin xs = .ok t)
    (hlen : xs.length ≤ 2 ^ 50) :
    ∃ roots, rootActivities t = some roots ∧
      |((allActivities t).map (floatSelf t)).sum - (roots.map (exactDur t)).sum| ≤ 2 * xs.length * 2 ^ (k - 53) := by
  obtain ⟨t', t1, h', h1, -, -, hro, hro1, hdur, hone, -, key⟩ := sum_error hk hx hb h hlen
  obtain ⟨roots, hr, hsum⟩ := c05_root_sum h'
  obtain ⟨roots1, hr1, hsum1⟩ := c05_root_sum h1
  rw [← hro] at hr
  rw [← hro1, hr, Option.some.injEq] at hr1
  subst hr1
  refine ⟨roots, hr, ?_⟩
  have ha := (c01_contents h).1
  have ha' : allActivities t' = allActivities t := by rw [ha, (c01_contents h').1, List.length_map]
  have ha1 : allActivities t1 = allActivities t := by rw [ha, (c01_contents h1).1, List.length_map]
  have h8 := key (allActivities t) (by rw [ha]; intro j hj; exact List.mem_range.1 hj)
  have h9 : total (selfDuration t') (allActivities t) = (roots.map (exactDur t)).sum := by
    rw [← ha', ← hsum]
    simp only [total]
    congr 1
    exact List.map_congr_left fun c _ => hdur c
  have h10 : 0 ≤ total (selfDuration t1) (allActivities t) := by
    rw [← ha1, ← hsum1]
    simp only [total]
    apply List.sum_nonneg
    intro x hx'
    obtain ⟨c, hc, rfl⟩ := List.mem_map.1 hx'
    simp only [duration, (c01_contents h1).2, List.getElem?_map]
    cases xs[c]? with
    | none => exact le_refl (0 : ℚ)
    | some a => exact zero_le_one
  rw [h9] at h8
  refine h8.trans ?_
  have := Binary64.pow_pos2 (k - 53)
  rw [ha, List.length_range] at h8 ⊢
  rw [ha] at h10
  nlinarith

end main

/-! ## A concrete case -/

/-- Binary64 numbers closest to a third and a tenth. -/
def third : F64 := ⟨6004799503160661 / 2 ^ 54⟩
def tenth : F64 := ⟨7205759403792794 / 2 ^ 56⟩

theorem third_rep : Binary64.Rep third.val := ⟨6004799503160661, -54, by norm_num, by norm_num, by norm_num [third, zpow_neg]⟩
theorem tenth_rep : Binary64.Rep tenth.val := ⟨7205759403792794, -56, by norm_num, by norm_num, by norm_num [tenth, zpow_neg]⟩
theorem one_rep : Binary64.Rep (1 : ℚ) := ⟨1, 0, by norm_num, by norm_num, by norm_num⟩

/-- Two activities that last a tenth of a microsecond inside one that lasts one. -/
def fracXs : List (Stat F64 F64 String) :=
  [⟨"Source", third, third + tenth, tenth⟩, ⟨"Source", ⟨1⟩, ⟨1⟩ + tenth, tenth⟩, ⟨"Frontend", third, third + ⟨1⟩, ⟨1⟩⟩]

theorem fracXs_timed : ∀ a ∈ fracXs, Timed a := by
  have h3 : 0 ≤ third.val := by norm_num [third]
  have h10 : 0 ≤ tenth.val := by norm_num [tenth]
  intro a ha
  simp only [fracXs, List.mem_cons, List.not_mem_nil, or_false] at ha
  rcases ha with rfl | rfl | rfl
  · exact ⟨h3, third_rep, h10, tenth_rep, rfl⟩
  · exact ⟨zero_le_one, one_rep, h10, tenth_rep, rfl⟩
  · exact ⟨h3, third_rep, zero_le_one, one_rep, rfl⟩

theorem fracXs_loads : ∃ t, load ⟨-1⟩ fracXs = .ok t := by
  have h : (match load ⟨-1⟩ fracXs with | .ok _ => true | .error _ => false) = true := by decide +kernel
  split at h
  · next t ht => exact ⟨t, ht⟩
  · simp at h

/-- Their self-durations add up to one microsecond within `6 * 2^(-52)`. -/
example : ∃ t roots, load ⟨-1⟩ fracXs = .ok t ∧ rootActivities t = some roots ∧
    |((allActivities t).map (floatSelf t)).sum - (roots.map (exactDur t)).sum| ≤ 2 * (3 : ℕ) * 2 ^ ((1 : ℤ) - 53) ∧
    (∃ s d, statOf t 2 = some s ∧ selfDuration t 2 = some d ∧ d ≤ s.dur) ∧
    (∃ cs, directChildren t 2 = some cs ∧ -(2 * (cs.length + 1) * 2 ^ ((1 : ℤ) - 53)) ≤ floatSelf t 2) ∧
    ∃ l, allChildren t 2 = some l := by
  obtain ⟨t, h⟩ := fracXs_loads
  have hb : ∀ a ∈ fracXs, a.stop.val < 2 ^ (1 : ℤ) := by
    have : ∀ a ∈ fracXs, a.stop.val < 2 := by decide +kernel
    intro a ha
    have := this a ha
    norm_num at this ⊢
    exact this
  obtain ⟨roots, h1, h2⟩ := c93_total_error (k := 1) (by norm_num) fracXs_timed hb h (by decide)
  obtain ⟨cs, h3, -, h4⟩ := c93_self_error (k := 1) (by norm_num) fracXs_timed hb h (by decide) (i := 2) (by decide)
  obtain ⟨l, h5, -⟩ := c93_subtree_error (k := 1) (by norm_num) fracXs_timed hb h (by decide) (i := 2) (by decide)
  exact ⟨t, roots, h, h1, h2, c93_self_le_duration fracXs_timed h (by decide), ⟨cs, h3, h4⟩, l, h5⟩

end Verif.Tree
