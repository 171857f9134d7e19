/-
C40 in the arithmetic of the program: the breakdown by activity type (src/trace.rs 14-26) and the total duration
(src/trace.rs 8-11) of a trace in whole microseconds, with every addition rounded.
-/
import Verif.Analysis.Hot
import Verif.Tree.Binary64
import Verif.Analysis.Share

set_option autoImplicit false
set_option linter.unusedVariables false
set_option linter.unusedSimpArgs false
set_option linter.unusedSectionVars false

namespace Verif.Analysis.FloatBreakdown

open Verif.Tree (Stat ATree load statOf selfDuration rootActivities allActivities RoundsWell WholeTimes)
open Verif.Analysis

/-- `a + b` on floats that are rounded with `rnd` (src/trace.rs 18: `+=`). -/
def addR (rnd : ℚ → ℚ) : Fl ℚ → Fl ℚ → Fl ℚ
  | .num a, .num b => .num (rnd (a + b))
  | _, _ => .nan

/-- src/trace.rs 9: `roots.map(|root| root.duration()).sum::<f64>()`. -/
def rootDuration (rnd : ℚ → ℚ) (durations : List ℚ) : ℚ := durations.foldl (fun s d => rnd (s + d)) 0

/-- What the program has: the type and the float self-duration of every activity, in order. -/
def floatActs {rnd : ℚ → ℚ} {α ν : Type} (name : α → ν) (t : ATree ℚ (Tree.Fl rnd) α) : List (ν × Fl ℚ) :=
  (treeActs name t).map fun a => (a.1, .num a.2.val)

/-! ### Proofs -/

variable {rnd : ℚ → ℚ} {ν : Type} [DecidableEq ν]

theorem addR_id : addR id = Fl.add := by
  funext a b
  cases a <;> cases b <;> rfl

/-- A map of whole numbers, as floats. -/
def castN (m : List (ν × ℕ)) : List (ν × Fl ℚ) := m.map fun e => (e.1, .num (e.2 : ℚ))

theorem addR_nat (R : RoundsWell rnd) (a b : ℕ) (h : a + b ≤ 2 ^ 53) :
    addR rnd (.num (a : ℚ)) (.num (b : ℚ)) = .num ((a + b : ℕ) : ℚ) := by
  have := R ((a : ℤ) + b) (by omega) (by exact_mod_cast h)
  push_cast at this
  simp only [addR]
  rw [this]; push_cast; rfl

theorem addEntry_cast (R : RoundsWell rnd) (n : ν) (d : ℕ) : ∀ (m : List (ν × ℕ)), (m.map (·.2)).sum + d ≤ 2 ^ 53 →
    addEntry (addR rnd) (.num 0) (castN m) n (.num (d : ℚ)) = castN (addEntry (· + ·) 0 m n d) := by
  intro m
  induction m with
  | nil =>
    intro h
    have := addR_nat R 0 d (by simpa using h)
    simp only [Nat.cast_zero] at this
    simp [castN, addEntry, this]
  | cons e m ih =>
    intro h
    obtain ⟨n', d'⟩ := e
    simp only [List.map_cons, List.sum_cons] at h
    simp only [castN, List.map_cons, addEntry]
    by_cases hn : n' = n
    · rw [if_pos hn, if_pos hn, addR_nat R d' d (by omega)]; simp
    · rw [if_neg hn, if_neg hn, List.map_cons]
      congr 1
      exact ih (by omega)

theorem addEntry_sum (n : ν) (d : ℕ) : ∀ (m : List (ν × ℕ)),
    ((addEntry (· + ·) 0 m n d).map (·.2)).sum = (m.map (·.2)).sum + d := by
  intro m
  induction m with
  | nil => simp [addEntry]
  | cons e m ih =>
    obtain ⟨n', d'⟩ := e
    simp only [addEntry]
    by_cases hn : n' = n
    · rw [if_pos hn]; simp only [List.map_cons, List.sum_cons]; omega
    · rw [if_neg hn]; simp only [List.map_cons, List.sum_cons, ih]; omega

theorem profileMap_cast (R : RoundsWell rnd) (acts : List (ν × ℕ)) (h : (acts.map (·.2)).sum ≤ 2 ^ 53) :
    profileMap (addR rnd) (.num 0) (castN acts) = castN (profileMap (· + ·) 0 acts) := by
  have key : ∀ (acts m : List (ν × ℕ)), (m.map (·.2)).sum + (acts.map (·.2)).sum ≤ 2 ^ 53 →
      (castN acts).foldl (fun m a => addEntry (addR rnd) (.num 0) m a.1 a.2) (castN m) =
        castN (acts.foldl (fun m a => addEntry (· + ·) 0 m a.1 a.2) m) := by
    intro acts
    induction acts with
    | nil => intro m _; rfl
    | cons a acts ih =>
      intro m hb
      simp only [List.map_cons, List.sum_cons] at hb
      have e : (castN (a :: acts)) = (a.1, .num (a.2 : ℚ)) :: castN acts := rfl
      rw [e, List.foldl_cons, List.foldl_cons]
      rw [addEntry_cast R a.1 a.2 m (by omega)]
      exact ih _ (by rw [addEntry_sum]; omega)
  exact key acts [] (by simpa using h)

theorem rootDuration_nat (R : RoundsWell rnd) (l : List ℕ) (h : l.sum ≤ 2 ^ 53) :
    rootDuration rnd (l.map (fun (n : ℕ) => (n : ℚ))) = ((l.sum : ℕ) : ℚ) := by
  have key : ∀ (l : List ℕ) (a : ℕ), a + l.sum ≤ 2 ^ 53 →
      (l.map (fun (n : ℕ) => (n : ℚ))).foldl (fun s d => rnd (s + d)) (a : ℚ) = ((a + l.sum : ℕ) : ℚ) := by
    intro l
    induction l with
    | nil => intro a _; simp
    | cons d l ih =>
      intro a hb
      simp only [List.sum_cons] at hb
      have := R ((a : ℤ) + d) (by omega) (by exact_mod_cast (by omega : a + d ≤ 2 ^ 53))
      push_cast at this
      rw [List.map_cons, List.foldl_cons, this]
      have h2 := ih (a + d) (by omega)
      push_cast at h2
      rw [h2]; push_cast [List.sum_cons]; ring
  have := key l 0 (by simpa using h)
  simpa [rootDuration] using this

/-- Backwards disjoint lists of whole durations end with the first: their sum is at most its end. -/
theorem sum_le_stop {α : Type} (t : ATree ℚ ℚ α) : ∀ (l : List Nat),
    (∀ i ∈ l, ∃ s, statOf t i = some s ∧ 0 ≤ s.start ∧ s.stop = s.start + s.dur ∧ 0 ≤ s.dur) →
    Tree.DisjointBackwards t l → ∀ B : ℚ, 0 ≤ B → (∀ i ∈ l, ∀ s, statOf t i = some s → s.stop ≤ B) →
    Tree.total (Tree.duration t) l ≤ B := by
  intro l
  induction l with
  | nil => intro _ _ B hB _; simpa [Tree.total] using hB
  | cons i l ih =>
    intro hs hd B hB hb
    obtain ⟨s, h1, h2, h3, h4⟩ := hs i (by simp)
    rw [Tree.DisjointBackwards, List.pairwise_cons] at hd
    have := ih (fun j hj => hs j (by simp [hj])) hd.2 s.start h2 (fun j hj c hc => hd.1 j hj s c h1 hc)
    have hB' := hb i (by simp) s h1
    have e : Tree.total (Tree.duration t) (i :: l) = s.dur + Tree.total (Tree.duration t) l := by
      simp [Tree.total, Tree.duration, h1]
    rw [e]; linarith

section main
variable {α : Type}

theorem roots_map (t : ATree ℚ (Tree.Fl rnd) α) : rootActivities (t.mapDur Tree.Fl.val) = rootActivities t := by
  simp [rootActivities, Tree.hierarchyIter, ATree.mapDur]

theorem self_map (t : ATree ℚ (Tree.Fl rnd) α) (i : Nat) :
    selfDuration (t.mapDur Tree.Fl.val) i = (selfDuration t i).map Tree.Fl.val := by
  simp only [selfDuration, ATree.mapDur, List.getElem?_map]
  cases t.acts[i]? <;> rfl

theorem stat_map (t : ATree ℚ (Tree.Fl rnd) α) (i : Nat) :
    statOf (t.mapDur Tree.Fl.val) i = (statOf t i).map (Stat.mapDur Tree.Fl.val) := by
  simp only [statOf, ATree.mapDur, List.getElem?_map]
  cases t.acts[i]? <;> rfl

theorem acts_map (name : α → ν) (t : ATree ℚ (Tree.Fl rnd) α) :
    treeActs name (t.mapDur Tree.Fl.val) = (treeActs name t).map fun a => (a.1, a.2.val) := by
  have e : allActivities (t.mapDur Tree.Fl.val) = allActivities t := by simp [allActivities, ATree.mapDur]
  unfold treeActs
  rw [e, List.map_filterMap]
  congr 1
  funext i
  rw [self_map, stat_map]
  cases statOf t i <;> cases selfDuration t i <;> rfl

/-- Everything that is needed of the exact tree. -/
theorem facts (R : RoundsWell rnd) (tmin : ℚ) {xs : List (Stat ℚ (Tree.Fl rnd) α)} {t : ATree ℚ (Tree.Fl rnd) α}
    (hx : ∀ a ∈ xs, WholeTimes rnd a) (h : load tmin xs = .ok t) :
    ∃ roots, rootActivities t = some roots ∧
      (∀ i ∈ roots, ∃ n : ℕ, ((statOf t i).map fun s => s.dur.val) = some (n : ℚ)) ∧
      Tree.total (Tree.duration (t.mapDur Tree.Fl.val)) roots ≤ 2 ^ 53 ∧
      (∀ i, i < xs.length → ∃ n : ℕ, selfDuration (t.mapDur Tree.Fl.val) i = some (n : ℚ)) := by
  have h' := Tree.c05_float_exact R tmin xs t hx h
  set t' := t.mapDur Tree.Fl.val with ht'
  obtain ⟨roots, hr, -⟩ := Tree.c05_root_sum h'
  have hst := (Tree.c01_contents h').2
  have hlen := (Tree.c01_contents h').1
  have hw : ∀ i s, statOf t' i = some s → ∃ a d : ℕ, s.start = a ∧ s.dur = d ∧ a + d ≤ 2 ^ 53 ∧ s.stop = s.start + s.dur := by
    intro i s hs
    rw [hst, List.getElem?_map] at hs
    cases hi : xs[i]? with
    | none => rw [hi] at hs; simp at hs
    | some a =>
      rw [hi] at hs
      simp only [Option.map_some, Option.some.injEq] at hs
      subst hs
      have ha := hx a (List.mem_of_getElem? hi)
      obtain ⟨h1, -⟩ := Tree.wholeTimes_stop R ha
      obtain ⟨b, d, h2, h3, h4, -⟩ := ha
      exact ⟨b, d, h2, h3, h4, h1⟩
  have hmem : ∀ i ∈ roots, i < xs.length := by
    intro i hi
    obtain ⟨b, roots', hb, e⟩ := Tree.load_inv h'
    rw [e] at hr
    rw [hb.rootActivities] at hr
    cases hr
    have h1 : i ∈ b.children ++ roots := by simp [hi]
    rw [hb.perm.mem_iff, List.mem_range, hb.length, List.length_map] at h1
    exact h1
  have hsome : ∀ i, i < xs.length → ∃ s, statOf t' i = some s := by
    intro i hi
    rw [hst, List.getElem?_map, List.getElem?_eq_getElem hi]
    exact ⟨_, rfl⟩
  refine ⟨roots, by rw [← roots_map]; exact hr, ?_, ?_, ?_⟩
  · intro i hi
    obtain ⟨s, hs⟩ := hsome i (hmem i hi)
    obtain ⟨a, d, -, hd, -, -⟩ := hw i s hs
    refine ⟨d, ?_⟩
    rw [ht', stat_map] at hs
    cases hs' : statOf t i with
    | none => rw [hs'] at hs; simp at hs
    | some s0 =>
      rw [hs'] at hs
      simp only [Option.map_some, Option.some.injEq] at hs ⊢
      rw [← hd, ← hs]; rfl
  · refine sum_le_stop t' roots ?_ ((Tree.c03_siblings_disjoint h').1 roots hr) _ (by norm_num) ?_
    · intro i hi
      obtain ⟨s, hs⟩ := hsome i (hmem i hi)
      obtain ⟨a, d, h1, h2, -, h3⟩ := hw i s hs
      exact ⟨s, hs, by rw [h1]; positivity, h3, by rw [h2]; positivity⟩
    · intro i hi s hs
      obtain ⟨a, d, h1, h2, h4, h3⟩ := hw i s hs
      rw [h3, h1, h2]
      exact_mod_cast h4
  · intro i hi
    obtain ⟨s, cs, hs, hc, hself⟩ := Tree.c05_self_duration h' (i := i) (by simpa using hi)
    obtain ⟨a, d, -, hd, -, -⟩ := hw i s hs
    obtain ⟨v, hv, hv0⟩ := Tree.c05_self_nonneg h' (by
        intro a ha
        obtain ⟨b, hb, rfl⟩ := List.mem_map.1 ha
        exact (Tree.wholeTimes_stop R (hx b hb)).1)
      (by
        intro a ha
        obtain ⟨b, hb, rfl⟩ := List.mem_map.1 ha
        exact (Tree.wholeTimes_stop R (hx b hb)).2) (i := i) (by simpa using hi)
    have hcs : ∀ (cs : List Nat) (a : ℕ), ∃ m : ℕ, cs.foldl (fun d c => d + ((statOf t' c).map (·.dur)).getD 0) (a : ℚ) = m := by
      intro cs
      induction cs with
      | nil => intro a; exact ⟨a, rfl⟩
      | cons c cs ih =>
        intro a
        rw [List.foldl_cons]
        cases hc : statOf t' c with
        | none =>
          obtain ⟨m, hm⟩ := ih a
          exact ⟨m, by simpa using hm⟩
        | some s' =>
          obtain ⟨-, d', -, hd', -⟩ := hw c s' hc
          obtain ⟨m, hm⟩ := ih (a + d')
          refine ⟨m, ?_⟩
          rw [← hm]
          simp [hd']
    obtain ⟨m, hm⟩ := hcs cs 0
    rw [Nat.cast_zero] at hm
    rw [hm, hd] at hself
    rw [hself, Option.some.injEq] at hv
    have hle : m ≤ d := by
      have : (m : ℚ) ≤ d := by linarith
      exact_mod_cast this
    exact ⟨d - m, by rw [hself]; push_cast [hle]; rfl⟩

theorem typeTotals_whole (name : α → ν) (R : RoundsWell rnd) (tmin : ℚ) {xs : List (Stat ℚ (Tree.Fl rnd) α)}
    {t : ATree ℚ (Tree.Fl rnd) α} (hx : ∀ a ∈ xs, WholeTimes rnd a) (h : load tmin xs = .ok t) :
    ∃ l : List (ν × ℕ), floatActs name t = castN l ∧ (l.map (·.2)).sum ≤ 2 ^ 53 := by
  obtain ⟨roots, hr, hroots, hle, hself⟩ := facts R tmin hx h
  have h' := Tree.c05_float_exact R tmin xs t hx h
  obtain ⟨roots', hr', hsum⟩ := Tree.c05_root_sum h'
  rw [roots_map, hr] at hr'
  cases hr'
  rw [hsum] at hle
  have hin : ∀ i ∈ allActivities (t.mapDur Tree.Fl.val), i < xs.length := by
    intro i hi
    rw [(Tree.c01_contents h').1] at hi
    simpa using hi
  have hst := (Tree.c01_contents h').2
  obtain ⟨f, hf, hf'⟩ : ∃ f : Nat → Option (ν × ℚ),
      treeActs name (t.mapDur Tree.Fl.val) = (allActivities (t.mapDur Tree.Fl.val)).filterMap f ∧
      ∀ i s d, statOf (t.mapDur Tree.Fl.val) i = some s → selfDuration (t.mapDur Tree.Fl.val) i = some d →
        f i = some (name s.act, d) := ⟨_, rfl, fun i s d h1 h2 => by simp only [h1, h2]⟩
  have key : ∀ ids : List Nat, (∀ i ∈ ids, i < xs.length) → ∃ l : List (ν × ℕ),
      ((ids.filterMap f).map fun a => (a.1, Fl.num a.2)) = castN l ∧
      (((l.map (·.2)).sum : ℕ) : ℚ) = Tree.total (selfDuration (t.mapDur Tree.Fl.val)) ids := by
    intro ids
    induction ids with
    | nil => intro _; exact ⟨[], rfl, by simp [Tree.total]⟩
    | cons i ids ih =>
      intro hids
      obtain ⟨l, hl, hs⟩ := ih fun j hj => hids j (by simp [hj])
      have hi := hids i (by simp)
      obtain ⟨n, hn⟩ := hself i hi
      obtain ⟨s, hs'⟩ : ∃ s, statOf (t.mapDur Tree.Fl.val) i = some s := by
        rw [hst, List.getElem?_map, List.getElem?_eq_getElem hi]; exact ⟨_, rfl⟩
      refine ⟨(name s.act, n) :: l, ?_, ?_⟩
      · rw [List.filterMap_cons]
        simp only [hf' i s _ hs' hn, List.map_cons]
        rw [hl]; rfl
      · simp only [List.map_cons, List.sum_cons, Tree.total, hn, Option.getD_some]
        push_cast
        rw [hs]; rfl
  obtain ⟨l, hl, hs⟩ := key _ hin
  refine ⟨l, ?_, ?_⟩
  · rw [← hl, ← hf, floatActs]
    have := congrArg (List.map fun a : ν × ℚ => (a.1, Fl.num a.2)) (acts_map name t)
    rw [List.map_map] at this
    exact this.symm
  · rw [← hs] at hle
    exact_mod_cast hle

/-- **C40** with floats, for any rounding that keeps whole numbers up to 2^53. -/
theorem c40_float (name : α → ν) (R : RoundsWell rnd) (tmin : ℚ) {xs : List (Stat ℚ (Tree.Fl rnd) α)}
    {t : ATree ℚ (Tree.Fl rnd) α} (hx : ∀ a ∈ xs, WholeTimes rnd a) (h : load tmin xs = .ok t)
    (o : Out (List (ν × Fl ℚ))) (hb : BreakdownOut (addR rnd) (.num 0) (floatActs name t) o) :
    ∃ out roots, o = .ok out ∧ rootActivities t = some roots ∧
      (∀ e ∈ out, e.2 = .num (Tree.total (fun i => (selfDuration t i).map Tree.Fl.val)
        ((allActivities t).filter fun i => ((statOf t i).map fun s => name s.act) = some e.1))) ∧
      (out.map fun e => e.2.val).sum = Tree.total (fun i => (statOf t i).map fun s => s.dur.val) roots ∧
      (out.map fun e => e.2.val).sum =
        rootDuration rnd (roots.map fun i => ((statOf t i).map fun s => s.dur.val).getD 0) := by
  have h' := Tree.c05_float_exact R tmin xs t hx h
  obtain ⟨l, hl, hle⟩ := typeTotals_whole name R tmin hx h
  have e1 : profileMap (addR rnd) (.num 0) (floatActs name t) = profileMap Fl.add (.num 0) (floatActs name t) := by
    rw [hl, profileMap_cast R l hle, ← addR_id, profileMap_cast (rnd := id) (fun _ _ _ => rfl) l hle]
  have hb' : BreakdownOut Fl.add (.num 0)
      ((treeActs name (t.mapDur Tree.Fl.val)).map fun a => (a.1, .num a.2)) o := by
    obtain ⟨entries, hp, hs⟩ := hb
    rw [e1] at hp
    refine ⟨entries, ?_, hs⟩
    rw [acts_map, List.map_map]
    exact hp
  obtain ⟨out, roots, ho, hr, h1, h2⟩ := breakdown_total name h' o hb'
  rw [roots_map] at hr
  have hall : allActivities (t.mapDur Tree.Fl.val) = allActivities t := by simp [allActivities, ATree.mapDur]
  have hname : ∀ i, ((statOf (t.mapDur Tree.Fl.val) i).map fun s => name s.act) = (statOf t i).map fun s => name s.act := by
    intro i; rw [stat_map]; cases statOf t i <;> rfl
  have hdur : Tree.duration (t.mapDur Tree.Fl.val) = fun i => (statOf t i).map fun s => s.dur.val := by
    funext i; rw [Tree.duration, stat_map]; cases statOf t i <;> rfl
  have hself : selfDuration (t.mapDur Tree.Fl.val) = fun i => (selfDuration t i).map Tree.Fl.val := by
    funext i; rw [self_map]
  simp only [hall, hname, hself] at h1
  rw [hdur] at h2
  refine ⟨out, roots, ho, hr, h1, h2, ?_⟩
  obtain ⟨roots', hr', hn, hle', -⟩ := facts R tmin hx h
  rw [hr] at hr'
  cases hr'
  rw [hdur] at hle'
  rw [h2]
  have key : ∀ ids : List Nat, (∀ i ∈ ids, ∃ n : ℕ, ((statOf t i).map fun s => s.dur.val) = some (n : ℚ)) →
      ∃ l : List ℕ, (ids.map fun i => ((statOf t i).map fun s => s.dur.val).getD 0) = l.map (fun (n : ℕ) => (n : ℚ)) ∧
        ((l.sum : ℕ) : ℚ) = Tree.total (fun i => (statOf t i).map fun s => s.dur.val) ids := by
    intro ids
    induction ids with
    | nil => intro _; exact ⟨[], rfl, by simp [Tree.total]⟩
    | cons i ids ih =>
      intro hi
      obtain ⟨n, hn⟩ := hi i (by simp)
      obtain ⟨l, hl, hs⟩ := ih fun j hj => hi j (by simp [hj])
      refine ⟨n :: l, by simp [hn, hl], ?_⟩
      simp only [Tree.total, List.map_cons, List.sum_cons, hn, Option.getD_some]
      push_cast
      rw [hs]; rfl
  obtain ⟨l', hl', hs'⟩ := key roots hn
  rw [hl', rootDuration_nat R l' (by rw [← hs'] at hle'; exact_mod_cast hle'), hs']

/-- **C40**, with the arithmetic of the program (IEEE binary64). For every trace in whole microseconds that ends before
2^53 µs, the breakdown by type does not panic; each type gets exactly the sum of the self-durations of its activities; the
listed durations add up exactly to the durations of the root activities, and so does the float total that percentages
are relative to. -/
theorem c40_binary64 (name : α → ν) (tmin : ℚ) {xs : List (Stat ℚ (Tree.Fl Binary64.rnd) α)}
    {t : ATree ℚ (Tree.Fl Binary64.rnd) α} (hx : ∀ a ∈ xs, WholeTimes Binary64.rnd a) (h : load tmin xs = .ok t)
    (o : Out (List (ν × Fl ℚ))) (hb : BreakdownOut (addR Binary64.rnd) (.num 0) (floatActs name t) o) :
    ∃ out roots, o = .ok out ∧ rootActivities t = some roots ∧
      (∀ e ∈ out, e.2 = .num (Tree.total (fun i => (selfDuration t i).map Tree.Fl.val)
        ((allActivities t).filter fun i => ((statOf t i).map fun s => name s.act) = some e.1))) ∧
      (out.map fun e => e.2.val).sum = Tree.total (fun i => (statOf t i).map fun s => s.dur.val) roots ∧
      (out.map fun e => e.2.val).sum =
        rootDuration Binary64.rnd (roots.map fun i => ((statOf t i).map fun s => s.dur.val).getD 0) :=
  c40_float name Binary64.rnd_roundsWell tmin hx h o hb

/-- **C86** from the trace to the printed number. For every trace in whole microseconds that ends before 2^53 µs and whose
root activities do not all last 0 µs, every line of the profile by type has a percentage (computed in binary64 from the
rounded sums) that is between 0.00 and 100.00 and within half a hundredth (and `2^-44`) of the true share of the
self-durations of its type in the durations of the root activities. -/
theorem c86_trace (name : α → ν) (tmin : ℚ) {xs : List (Stat ℚ (Tree.Fl Binary64.rnd) α)}
    {t : ATree ℚ (Tree.Fl Binary64.rnd) α} (hx : ∀ a ∈ xs, WholeTimes Binary64.rnd a) (h : load tmin xs = .ok t)
    {roots : List Nat} (hroots : rootActivities t = some roots)
    (hpos : Tree.total (fun i => (statOf t i).map fun s => s.dur.val) roots ≠ 0)
    (out : List (ν × Fl ℚ)) (hb : BreakdownOut (addR Binary64.rnd) (.num 0) (floatActs name t) (.ok out)) :
    ∀ e ∈ out, ∃ d, e.2 = .num d ∧
      let p := Share.hundredths (Share.percent (rootDuration Binary64.rnd
        (roots.map fun i => ((statOf t i).map fun s => s.dur.val).getD 0)) d)
      0 ≤ p ∧ p ≤ 10000 ∧
      |(p : ℚ) / 100 - 100 * (Tree.total (fun i => (selfDuration t i).map Tree.Fl.val)
          ((allActivities t).filter fun i => ((statOf t i).map fun s => name s.act) = some e.1) /
        Tree.total (fun i => (statOf t i).map fun s => s.dur.val) roots)| ≤ 1 / 200 + 1 / 2 ^ 44 := by
  have R := Binary64.rnd_roundsWell
  obtain ⟨out', roots', ho, hr, h1, h2, h3⟩ := c40_binary64 name tmin hx h _ hb
  cases ho
  rw [hroots] at hr
  cases hr
  obtain ⟨roots', hr', hn, hle, hself⟩ := facts R tmin hx h
  rw [hroots] at hr'
  cases hr'
  have hdur : Tree.duration (t.mapDur Tree.Fl.val) = fun i => (statOf t i).map fun s => s.dur.val := by
    funext i; rw [Tree.duration, stat_map]; cases statOf t i <;> rfl
  rw [hdur] at hle
  set S := Tree.total (fun i => (statOf t i).map fun s => s.dur.val) roots with hS
  -- the total is a whole number between 1 and 2^53
  have hnat : ∀ ids : List Nat, (∀ i ∈ ids, ∃ n : ℕ, ((statOf t i).map fun s => s.dur.val) = some (n : ℚ)) →
      ∃ n : ℕ, Tree.total (fun i => (statOf t i).map fun s => s.dur.val) ids = n := by
    intro ids
    induction ids with
    | nil => intro _; exact ⟨0, by simp [Tree.total]⟩
    | cons i ids ih =>
      intro hi
      obtain ⟨n, hn⟩ := hi i (by simp)
      obtain ⟨m, hm⟩ := ih fun j hj => hi j (by simp [hj])
      refine ⟨n + m, ?_⟩
      simp only [Tree.total, List.map_cons, List.sum_cons, hn, Option.getD_some] at hm ⊢
      rw [hm]; push_cast; rfl
  obtain ⟨N, hN⟩ := hnat roots hn
  have hN1 : 1 ≤ N := by
    rcases Nat.eq_zero_or_pos N with rfl | h
    · exact absurd (by rw [hS, hN]; simp) hpos
    · exact h
  have hS1 : 1 ≤ S := by rw [hS, hN]; exact_mod_cast hN1
  have sane : Share.Sane S := by
    have a1 : (2 : ℚ) ^ (-1000 : ℤ) ≤ 2 ^ (0 : ℤ) := zpow_le_zpow_right₀ (by norm_num) (by norm_num)
    have a2 : (2 : ℚ) ^ (53 : ℤ) ≤ 2 ^ (1000 : ℤ) := zpow_le_zpow_right₀ (by norm_num) (by norm_num)
    rw [zpow_zero] at a1
    exact ⟨a1.trans hS1, le_trans (by exact_mod_cast hle) a2⟩
  -- every entry is between 0 and the total
  have hnn : ∀ ids : List Nat, 0 ≤ Tree.total (fun i => (selfDuration t i).map Tree.Fl.val) ids := by
    intro ids
    apply List.sum_nonneg
    intro x hx'
    obtain ⟨i, hi, rfl⟩ := List.mem_map.1 hx'
    by_cases hlt : i < xs.length
    · obtain ⟨n, hn⟩ := hself i hlt
      rw [self_map] at hn
      simp [hn]
    · have : selfDuration t i = none := by
        have := (Tree.c01_contents h).1
        have hl : t.acts.length = xs.length := by
          have := congrArg List.length this
          simpa [allActivities] using this
        rw [selfDuration, List.getElem?_eq_none (by omega)]; rfl
      simp [this]
  intro e he
  refine ⟨_, h1 e he, ?_⟩
  have hd0 := hnn ((allActivities t).filter fun i => ((statOf t i).map fun s => name s.act) = some e.1)
  have hdS : Tree.total (fun i => (selfDuration t i).map Tree.Fl.val)
      ((allActivities t).filter fun i => ((statOf t i).map fun s => name s.act) = some e.1) ≤ S := by
    rw [← h2]
    have hall : ∀ x ∈ out.map (fun e => e.2.val), 0 ≤ x := by
      intro x hx'
      obtain ⟨e', he', rfl⟩ := List.mem_map.1 hx'
      rw [h1 e' he']
      exact hnn _
    have hmem : Tree.total (fun i => (selfDuration t i).map Tree.Fl.val)
        ((allActivities t).filter fun i => ((statOf t i).map fun s => name s.act) = some e.1) ∈ out.map (fun e => e.2.val) :=
      List.mem_map.2 ⟨e, he, by rw [h1 e he]; rfl⟩
    exact List.single_le_sum hall _ hmem
  rw [← h3, h2]
  exact Share.c86_percent sane hd0 hdS

/-- Concrete cases. -/
example : ∃ t o, load 0 Binary64.bXs = .ok t ∧ BreakdownOut (addR Binary64.rnd) (.num 0) (floatActs id t) o ∧
    ∃ out roots, o = .ok out ∧ rootActivities t = some roots ∧
      (out.map fun e => e.2.val).sum = Tree.total (fun i => (statOf t i).map fun s => s.dur.val) roots := by
  obtain ⟨t, h⟩ := Binary64.bXs_load
  obtain ⟨o, ho⟩ := breakdown_exists (addR Binary64.rnd) (.num 0) (floatActs id t)
  obtain ⟨out, roots, h1, h2, -, h3, -⟩ := c40_binary64 id 0 Binary64.bXs_whole h o ho
  exact ⟨t, o, h, ho, out, roots, h1, h2, h3⟩

example : ∃ t out, load 0 Binary64.bXs = .ok t ∧
    BreakdownOut (addR Binary64.rnd) (.num 0) (floatActs id t) (.ok out) ∧
    ∀ e ∈ out, ∃ d, e.2 = .num d ∧ Share.hundredths (Share.percent (rootDuration Binary64.rnd
        ([3, 2].map fun i => ((statOf t i).map fun s => s.dur.val).getD 0)) d) ≤ 10000 := by
  obtain ⟨t, h, hr⟩ : ∃ t, load 0 Binary64.bXs = .ok t ∧ rootActivities t = some [3, 2] :=
    ⟨_, by with_unfolding_all rfl, by with_unfolding_all rfl⟩
  obtain ⟨o, ho⟩ := breakdown_exists (addR Binary64.rnd) (.num 0) (floatActs id t)
  obtain ⟨out, roots, rfl, -⟩ := c40_binary64 id 0 Binary64.bXs_whole h o ho
  refine ⟨t, out, h, ho, fun e he => ?_⟩
  obtain ⟨d, h1, -, h2, -⟩ := c86_trace id 0 Binary64.bXs_whole h hr (by
    simp only [(Tree.c01_contents h).2]
    norm_num [Tree.total, Binary64.bXs]) out ho e he
  exact ⟨d, h1, h2⟩

end main

end Verif.Analysis.FloatBreakdown
