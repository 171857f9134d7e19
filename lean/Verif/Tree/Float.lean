/-
C05 with floating-point times: if all times of a trace are whole numbers of microseconds up to 2^53 (285 years), the
rounding of f64 arithmetic changes nothing, so the tree is the one that exact arithmetic gives.
-/
import Verif.Tree.Props
import Mathlib.Algebra.Group.PUnit
import Mathlib.Data.Rat.Defs
import Mathlib.Algebra.Order.BigOperators.Group.List
import Mathlib.Algebra.Order.Ring.Rat
import Mathlib.Algebra.Order.Floor.Defs
import Mathlib.Data.Rat.Floor

set_option autoImplicit false
set_option linter.unusedVariables false
set_option linter.unusedSectionVars false
set_option linter.unusedSimpArgs false

namespace Verif.Tree

/-! ## Changing the type of durations -/

section map

variable {T D D' α : Type}

/-- The same activity with another representation of its duration. -/
def Stat.mapDur (f : D → D') (s : Stat T D α) : Stat T D' α := ⟨s.act, s.start, s.stop, f s.dur⟩

def Node.mapDur (f : D → D') (n : Node T D α) : Node T D' α :=
  ⟨n.stat.mapDur f, f n.selfDur, n.first, n.chLo, n.chHi, n.parent⟩

def Builder.mapDur (f : D → D') (b : Builder T D α) : Builder T D' α :=
  ⟨b.acts.map (Node.mapDur f), b.children, b.lastEnd⟩

/-- The same tree with another representation of the durations and self-durations. -/
def ATree.mapDur (f : D → D') (t : ATree T D α) : ATree T D' α :=
  ⟨t.acts.map (Node.mapDur f), t.children, t.firstRoot⟩

def Err.mapDur (f : D → D') : Err T D α → Err T D' α
  | .order a b => .order a b
  | .overlap a b => .overlap (a.mapDur f) (b.mapDur f)
  | .panic => .panic

/-- Apply to either result. -/
def mapRes {E E' A A' : Type} (g : E → E') (h : A → A') : Except E A → Except E' A'
  | .error e => .error (g e)
  | .ok a => .ok (h a)

variable [LinearOrder T] [Zero D] [Add D] [Sub D] [Zero D'] [Add D'] [Sub D']

/-- `f` respects the operations on durations. -/
structure Hom (f : D → D') : Prop where
  zero : f 0 = 0
  add : ∀ a b, f (a + b) = f a + f b
  sub : ∀ a b, f (a - b) = f a - f b

theorem scan_map {f : D → D'} (H : Hom f) (x : Stat T D α) (cur : Nat) : ∀ (n : Nat) (acts : List (Node T D α))
    (children : List Nat) (cdur : D) (first : Nat),
    scan (x.mapDur f) cur (acts.map (Node.mapDur f)) children (f cdur) first n =
      mapRes (Err.mapDur f) (fun r => (r.1.map (Node.mapDur f), r.2.1, f r.2.2.1, r.2.2.2))
        (scan x cur acts children cdur first n) := by
  intro n
  induction n using Nat.strong_induction_on with
  | _ n ih =>
    intro acts children cdur first
    cases n with
    | zero => rw [scan, scan]; rfl
    | succ k =>
      rw [scan, scan]
      simp only [List.getElem?_map]
      cases acts[k]? with
      | none => rfl
      | some cand =>
        simp only [Option.map_some, Node.mapDur, Stat.mapDur]
        by_cases h1 : cand.stat.start < x.start
        · by_cases h2 : cand.stat.stop ≤ x.start
          · simp only [h1, h2, if_true]; rfl
          · simp only [h1, h2, if_true, if_false]; rfl
        · by_cases h3 : cand.first ≤ k
          · simp only [h1, h3, if_true, if_false]
            have := ih cand.first (by omega) (acts.set k { cand with parent := nonZero cur }) (children ++ [k])
              (cdur + cand.stat.dur) cand.first
            rw [← this, List.map_set, H.add]
            rfl
          · simp only [h1, h3, if_false]; rfl

theorem insert_map {f : D → D'} (H : Hom f) (b : Builder T D α) (x : Stat T D α) :
    insert (b.mapDur f) (x.mapDur f) = mapRes (Err.mapDur f) (Builder.mapDur f) (insert b x) := by
  unfold insert
  by_cases h : x.stop < b.lastEnd
  · rw [if_pos h, if_pos (by exact h)]; rfl
  · rw [if_neg h, if_neg (by exact h)]
    have hs := scan_map H x b.acts.length b.acts.length b.acts b.children 0 b.acts.length
    rw [H.zero] at hs
    simp only [Builder.mapDur, List.length_map]
    rw [hs]
    cases scan x b.acts.length b.acts b.children 0 b.acts.length b.acts.length with
    | error e => rfl
    | ok r =>
      obtain ⟨acts, children, cdur, first⟩ := r
      simp only [mapRes, Builder.mapDur, List.map_append, List.map_cons, List.map_nil, Node.mapDur, Stat.mapDur, H.sub]

theorem insertAll_map {f : D → D'} (H : Hom f) (xs : List (Stat T D α)) : ∀ b : Builder T D α,
    insertAll (b.mapDur f) (xs.map (Stat.mapDur f)) = mapRes (Err.mapDur f) (Builder.mapDur f) (insertAll b xs) := by
  induction xs with
  | nil => intro b; rfl
  | cons x xs ih =>
    intro b
    simp only [List.map_cons, insertAll, insert_map H]
    cases insert b x with
    | error e => rfl
    | ok b' => exact ih b'

theorem rootScan_map (f : D → D') (acts : List (Node T D α)) : ∀ (n : Nat) (children : List Nat),
    rootScan (acts.map (Node.mapDur f)) children n =
      mapRes (Err.mapDur f) id (rootScan acts children n) := by
  intro n
  induction n using Nat.strong_induction_on with
  | _ n ih =>
    intro children
    cases n with
    | zero => rw [rootScan, rootScan]; rfl
    | succ k =>
      rw [rootScan, rootScan]
      simp only [List.getElem?_map]
      cases acts[k]? with
      | none => rfl
      | some root =>
        simp only [Option.map_some, Node.mapDur]
        by_cases h3 : root.first ≤ k
        · rw [if_pos h3, if_pos h3]; exact ih root.first (by omega) _
        · rw [if_neg h3, if_neg h3]; rfl

theorem load_map {f : D → D'} (H : Hom f) (tmin : T) (xs : List (Stat T D α)) :
    load tmin (xs.map (Stat.mapDur f)) = mapRes (Err.mapDur f) (ATree.mapDur f) (load tmin xs) := by
  unfold load
  have := insertAll_map H xs (empty tmin)
  rw [show Builder.mapDur f (empty tmin : Builder T D α) = empty tmin from rfl] at this
  rw [this]
  cases insertAll (empty tmin) xs with
  | error e => rfl
  | ok b =>
    simp only [mapRes, build, Builder.mapDur, List.length_map, rootScan_map]
    cases rootScan b.acts b.children b.acts.length with
    | error e => rfl
    | ok children =>
      simp only [mapRes, id]
      by_cases h : b.acts.length = children.length
      · rw [if_pos h, if_pos h]; rfl
      · rw [if_neg h, if_neg h]; rfl

end map

/-! ## Floating-point numbers -/

/-- Numbers with an arithmetic that rounds every result with `rnd`. -/
structure Fl (rnd : ℚ → ℚ) where
  val : ℚ

namespace Fl
variable {rnd : ℚ → ℚ}
instance : Zero (Fl rnd) := ⟨⟨0⟩⟩
instance : Add (Fl rnd) := ⟨fun a b => ⟨rnd (a.val + b.val)⟩⟩
instance : Sub (Fl rnd) := ⟨fun a b => ⟨rnd (a.val - b.val)⟩⟩
end Fl

/-- What is needed of the rounding of f64: whole numbers up to 2^53 are not changed. -/
def RoundsWell (rnd : ℚ → ℚ) : Prop := ∀ z : ℤ, -2 ^ 53 ≤ z → z ≤ 2 ^ 53 → rnd (z : ℚ) = z

/-- The times of an activity are whole numbers of microseconds that end before 2^53, and its end is what the program
computes (`end()`, clang-time-trace/src/stats/activity/mod.rs 90-92: `start + duration`, rounded). -/
def WholeTimes (rnd : ℚ → ℚ) {α : Type} (a : Stat ℚ (Fl rnd) α) : Prop :=
  ∃ s d : ℕ, a.start = s ∧ a.dur.val = d ∧ s + d ≤ 2 ^ 53 ∧ a.stop = rnd (a.start + a.dur.val)

section float

variable {rnd : ℚ → ℚ} {α : Type}

theorem wholeTimes_stop (R : RoundsWell rnd) {a : Stat ℚ (Fl rnd) α} (h : WholeTimes rnd a) :
    a.stop = a.start + a.dur.val ∧ 0 ≤ a.dur.val := by
  obtain ⟨s, d, h1, h2, h3, h4⟩ := h
  have := R ((s : ℤ) + d) (by omega) (by exact_mod_cast h3)
  rw [h1, h2] at h4
  push_cast at this
  refine ⟨by rw [h4, h1, h2, this], by rw [h2]; positivity⟩

/-- Rounded sums of whole numbers are exact as long as the exact sum is small. -/
theorem fold_exact (R : RoundsWell rnd) {ι : Type} (g : ι → Fl rnd) (cs : List ι) : ∀ (a : ℕ) (acc : Fl rnd),
    acc.val = a → (∀ c ∈ cs, ∃ d : ℕ, (g c).val = d) → a + (cs.map fun c => (g c).val).sum ≤ 2 ^ 53 →
    (cs.foldl (fun d c => d + g c) acc).val = cs.foldl (fun d c => d + (g c).val) acc.val ∧
      ∃ m : ℕ, (cs.foldl (fun d c => d + g c) acc).val = m := by
  induction cs with
  | nil => intro a acc ha _ _; exact ⟨rfl, a, ha⟩
  | cons c cs ih =>
    intro a acc ha hg hb
    obtain ⟨d, hd⟩ := hg c (by simp)
    rw [List.map_cons, List.sum_cons, hd] at hb
    have hnn : 0 ≤ (cs.map fun c => (g c).val).sum := by
      apply List.sum_nonneg
      intro x hx
      obtain ⟨c', hc', rfl⟩ := List.mem_map.1 hx
      obtain ⟨d', hd'⟩ := hg c' (by simp [hc'])
      rw [hd']; positivity
    have hle : ((a : ℤ) + d) ≤ 2 ^ 53 := by
      have : (a : ℚ) + d ≤ 2 ^ 53 := by linarith
      exact_mod_cast this
    have hv : (acc + g c).val = ((a + d : ℕ) : ℚ) := by
      show rnd (acc.val + (g c).val) = _
      rw [ha, hd]
      have := R ((a : ℤ) + d) (by omega) hle
      push_cast at this ⊢
      exact this
    obtain ⟨h1, h2⟩ := ih (a + d) (acc + g c) hv (fun c' hc' => hg c' (by simp [hc'])) (by push_cast; linarith)
    refine ⟨?_, h2⟩
    rw [List.foldl_cons, List.foldl_cons, h1, hv]
    congr 1
    rw [ha, hd]; push_cast; rfl

/-- **C05.** With f64 arithmetic, a trace of whole microseconds gives the tree that exact arithmetic gives: the same
structure, and every self-duration free of rounding errors. So all identities of C05 hold of the values the program
shows. -/
theorem c05_float_exact (R : RoundsWell rnd) (tmin : ℚ) (xs : List (Stat ℚ (Fl rnd) α)) (t : ATree ℚ (Fl rnd) α)
    (hx : ∀ a ∈ xs, WholeTimes rnd a) (h : load tmin xs = .ok t) :
    load tmin (xs.map (Stat.mapDur Fl.val)) = .ok (t.mapDur Fl.val) := by
  -- both trees have the same shape
  let e1 : Fl rnd → PUnit := fun _ => PUnit.unit
  let e2 : ℚ → PUnit := fun _ => PUnit.unit
  have H1 : Hom e1 := ⟨rfl, fun _ _ => rfl, fun _ _ => rfl⟩
  have H2 : Hom e2 := ⟨rfl, fun _ _ => rfl, fun _ _ => rfl⟩
  have L1 := load_map H1 tmin xs
  have L2 := load_map H2 tmin (xs.map (Stat.mapDur Fl.val))
  have hxs : (xs.map (Stat.mapDur Fl.val)).map (Stat.mapDur e2) = xs.map (Stat.mapDur e1) := by
    rw [List.map_map]; rfl
  rw [hxs, L1, h] at L2
  obtain ⟨t', h', hsh⟩ : ∃ t', load tmin (xs.map (Stat.mapDur Fl.val)) = .ok t' ∧ t.mapDur e1 = t'.mapDur e2 := by
    cases hl : load tmin (xs.map (Stat.mapDur Fl.val)) with
    | error e => rw [hl] at L2; simp [mapRes] at L2
    | ok t' => rw [hl] at L2; simp only [mapRes, Except.ok.injEq] at L2; exact ⟨t', rfl, L2⟩
  rw [h']
  congr 1
  obtain ⟨hlen, hst⟩ := c01_contents h
  obtain ⟨hlen', hst'⟩ := c01_contents h'
  -- contents
  have hshape := congrArg ATree.acts hsh
  simp only [ATree.mapDur] at hshape
  have hl : t.acts.length = t'.acts.length := by
    have := congrArg List.length hshape; simpa using this
  have hch : t.children = t'.children := congrArg ATree.children hsh
  have hfr : t.firstRoot = t'.firstRoot := congrArg ATree.firstRoot hsh
  have hnode : ∀ (i : Nat) (nd : Node ℚ (Fl rnd) α) (nd' : Node ℚ ℚ α), t.acts[i]? = some nd → t'.acts[i]? = some nd' → nd.mapDur Fl.val = nd' := by
    intro i nd nd' hi hi'
    have hil : i < xs.length := by
      have := (List.getElem?_eq_some_iff.1 hi).1
      have h3 := congrArg List.length hlen
      simp only [allActivities, List.length_range] at h3
      omega
    -- the erased nodes agree
    have he : nd.mapDur e1 = nd'.mapDur e2 := by
      have := congrArg (fun l => l[i]?) hshape
      simp only [List.getElem?_map, hi, hi', Option.map_some, Option.some.injEq] at this
      exact this
    have hf : nd.first = nd'.first := congrArg Node.first he
    have hlo : nd.chLo = nd'.chLo := congrArg Node.chLo he
    have hhi : nd.chHi = nd'.chHi := congrArg Node.chHi he
    have hpar : nd.parent = nd'.parent := congrArg Node.parent he
    -- the statistics agree
    have hs : nd.stat.mapDur Fl.val = nd'.stat := by
      have h3 := hst i
      have h4 := hst' i
      simp only [statOf, hi, Option.map_some] at h3
      simp only [statOf, hi', Option.map_some, List.getElem?_map, ← h3] at h4
      exact (Option.some.inj h4).symm
    -- the self-durations agree
    have hself : nd.selfDur.val = nd'.selfDur := by
      obtain ⟨s, cs, hs1, hc1, hd1⟩ := c05_self_duration h hil
      obtain ⟨s', cs', hs2, hc2, hd2⟩ := c05_self_duration h' (i := i) (by simpa using hil)
      obtain ⟨d, hd3, hd4⟩ := c05_self_nonneg h' (by
          intro a ha
          obtain ⟨b, hb, rfl⟩ := List.mem_map.1 ha
          exact (wholeTimes_stop R (hx b hb)).1)
        (by
          intro a ha
          obtain ⟨b, hb, rfl⟩ := List.mem_map.1 ha
          exact (wholeTimes_stop R (hx b hb)).2) (i := i) (by simpa using hil)
      have hcs : directChildren t i = directChildren t' i := by
        simp only [directChildren, hi, hi', hierarchyIter, hlo, hhi, hch, hl]
      rw [hcs, hc2, Option.some.injEq] at hc1
      subst hc1
      have hg : ∀ c, ((statOf t' c).map (·.dur)).getD 0 = (((statOf t c).map (·.dur)).getD 0 : Fl rnd).val := by
        intro c
        rw [hst, hst', List.getElem?_map]
        cases xs[c]? <;> rfl
      simp only [hg] at hd2
      rw [hd2, Option.some.injEq] at hd3
      simp only [statOf, hi, hi', Option.map_some, Option.some.injEq] at hs1 hs2
      subst hs1 hs2
      have hdur : nd'.stat.dur = nd.stat.dur.val := by rw [← hs]; rfl
      have hmem : nd.stat ∈ xs := by
        have h3 := hst i
        simp only [statOf, hi, Option.map_some] at h3
        exact List.mem_of_getElem? h3.symm
      obtain ⟨s0, d0, -, hd0, hb0, -⟩ := hx _ hmem
      have hb1 : (d0 : ℚ) ≤ 2 ^ 53 := by
        have : d0 ≤ 2 ^ 53 := by omega
        exact_mod_cast this
      set g : Nat → Fl rnd := fun c => ((statOf t c).map (·.dur)).getD 0 with hgdef
      have hwhole : ∀ c ∈ cs', ∃ d : ℕ, (g c).val = d := by
        intro c _
        rw [hgdef]
        simp only [hst]
        cases hxc : xs[c]? with
        | none => exact ⟨0, by simp; rfl⟩
        | some a =>
          obtain ⟨_, d1, -, h5, -⟩ := hx a (List.mem_of_getElem? hxc)
          exact ⟨d1, h5⟩
      have hsum : cs'.foldl (fun d c => d + (g c).val) 0 = (cs'.map fun c => (g c).val).sum := by
        rw [foldl_sum]; simp
      have hbound : (cs'.map fun c => (g c).val).sum ≤ d0 := by
        have : nd'.stat.dur - cs'.foldl (fun d c => d + (g c).val) 0 = d := hd3
        rw [hsum, hdur, hd0] at this
        linarith
      obtain ⟨h5, m, h6⟩ := fold_exact R g cs' 0 0 (by simp; rfl) hwhole (by simpa using hbound.trans hb1)
      simp only [selfDuration, hi, hi', Option.map_some, Option.some.injEq] at hd1 hd2
      rw [hd1, hd2, hdur]
      show rnd (nd.stat.dur.val - (cs'.foldl (fun d c => d + g c) 0).val) =
        nd.stat.dur.val - cs'.foldl (fun d c => d + (g c).val) 0
      have h7 : (0 : Fl rnd).val = 0 := rfl
      rw [h7] at h5
      rw [← h5, h6, hd0]
      have hm : (m : ℚ) ≤ d0 := by rw [← h6, h5, hsum]; exact hbound
      have hm' : m ≤ d0 := by exact_mod_cast hm
      have := R ((d0 : ℤ) - m) (by omega) (by omega)
      push_cast at this
      exact this
    cases nd; cases nd'
    simp only [Node.mapDur] at *
    subst hf hlo hhi hpar hs hself
    rfl
  have hacts : t.acts.map (Node.mapDur Fl.val) = t'.acts := by
    apply List.ext_getElem?
    intro i
    rw [List.getElem?_map]
    by_cases hi : i < t.acts.length
    · have hi' : i < t'.acts.length := by omega
      rw [List.getElem?_eq_getElem hi, List.getElem?_eq_getElem hi', Option.map_some, Option.some.injEq]
      exact hnode i _ _ (List.getElem?_eq_getElem hi) (List.getElem?_eq_getElem hi')
    · rw [List.getElem?_eq_none (by omega), List.getElem?_eq_none (by omega)]; rfl
  cases t; cases t'
  simp only [ATree.mapDur] at *
  subst hacts hch hfr
  rfl

end float

/-! ## A concrete case -/

/-- A crude rounding: to the integer below. -/
def floorRnd (x : ℚ) : ℚ := (⌊x⌋ : ℤ)

theorem floor_rounds : RoundsWell floorRnd := fun z _ _ => by simp [floorRnd]

def flXs : List (Stat ℚ (Fl floorRnd) String) :=
  [⟨"parse", 2, 5, ⟨3⟩⟩, ⟨"codegen", 5, 9, ⟨4⟩⟩, ⟨"frontend", 1, 10, ⟨9⟩⟩, ⟨"backend", 11, 12, ⟨1⟩⟩]

example : ∀ a ∈ flXs, WholeTimes floorRnd a := by
  intro a ha
  simp only [flXs, List.mem_cons, List.not_mem_nil, or_false] at ha
  rcases ha with rfl | rfl | rfl | rfl
  · exact ⟨2, 3, by norm_num, by norm_num, by norm_num, by norm_num [floorRnd]⟩
  · exact ⟨5, 4, by norm_num, by norm_num, by norm_num, by norm_num [floorRnd]⟩
  · exact ⟨1, 9, by norm_num, by norm_num, by norm_num, by norm_num [floorRnd]⟩
  · exact ⟨11, 1, by norm_num, by norm_num, by norm_num, by norm_num [floorRnd]⟩

example : ∃ t, load 0 flXs = .ok t := ⟨_, by with_unfolding_all rfl⟩

end Verif.Tree
