/-
C93 from the document: traces whose times are any non-negative `f64` numbers.
-/
import Verif.Analysis.FracTrace

set_option autoImplicit false
set_option linter.unusedVariables false
set_option linter.unusedSimpArgs false
set_option linter.unusedSectionVars false

namespace Verif.Analysis.WholeTrace

open Verif.Tree (F64 Stat ATree statOf selfDuration directChildren allChildren rootActivities allActivities Timed)
open Verif.Trace Verif.Trace.Ctf Verif.Trace.Ctf.Text

/-! ### Specification -/

/-- A JSON number that is exactly the non-negative binary64 number `x`. -/
inductive TimeNum : Num F64 → ℚ → Prop
  | nat (n : ℕ) (h : n < 2 ^ 53) : TimeNum (.nat n) n
  | float (f : F64) (h0 : 0 ≤ f.val) (hr : Binary64.Rep f.val) : TimeNum (.float f) f.val

/-- In the trace that a JSON document describes, every complete event gives its start and its duration as non-negative binary64
numbers, fractions included, and ends by 2^(k-1) µs. -/
def TimesBefore (k : ℤ) (j : Json F64) : Prop :=
  ∀ l js o, j = .obj l → .arr js ∈ occ l "traceEvents" → .obj o ∈ js → .str "X" ∈ occ o "ph" →
    ∃ n m a d, .num n ∈ occ o "ts" ∧ .num m ∈ occ o "dur" ∧ TimeNum n a ∧ TimeNum m d ∧ a + d ≤ 2 ^ (k - 1)

/-! ### Proofs -/

theorem TimeNum.facts {n : Num F64} {a : ℚ} (h : TimeNum n a) : 0 ≤ a ∧ Binary64.Rep a := by
  cases h with
  | nat n h =>
    refine ⟨by positivity, (n : ℤ), 0, ?_, by norm_num, by simp⟩
    rw [abs_of_nonneg (by positivity)]
    exact_mod_cast h
  | float f h0 hr => exact ⟨h0, hr⟩

theorem has_time {o : Entries F64} {key : String} {x : F64} {n : Num F64} {a : ℚ} (h : Has o key (IsNum F64.ofInt) x)
    (hn : .num n ∈ occ o key) (ha : TimeNum n a) : x.val = a := by
  obtain ⟨j, hj, hx⟩ := h
  rw [hj, List.mem_singleton] at hn
  subst hn
  cases ha with
  | nat n hb => exact has_nat (o := o) (k := key) ⟨_, hj, hx⟩ (by rw [hj]; simp) hb.le
  | float f h0 hr =>
    rcases hx with hx | ⟨i, hi, rfl⟩
    · simp only [Json.num.injEq, Num.float.injEq] at hx
      rw [hx]
    · rcases hi with ⟨m, hm, rfl⟩ | ⟨m, hm, rfl⟩ <;> simp at hm

theorem times_stats {cc : CharClass} {tmin : F64} {j : Json F64} {tr : ClangTrace F64} {k : ℤ} (hk : -1022 < k)
    (h : load cc tmin F64.ofInt j = some (.ok tr)) (hw : TimesBefore k j) :
    ∃ stats, Tree.load tmin stats = .ok tr.tree ∧ (∀ a ∈ stats, Timed a) ∧ (∀ a ∈ stats, a.stop.val < 2 ^ k) ∧
      allActivities tr.tree = List.range stats.length := by
  obtain ⟨l, js, evs, stats, rfl, hj, h1, h2, h3, h4, -⟩ := c74_activities h
  have key : ∀ a ∈ stats, Timed a ∧ a.stop.val < 2 ^ k := by
    intro a ha
    obtain ⟨ev, hev, d, dur, name, rfl, -, -, -, hs, hd, he⟩ := forall2_mem h2 ha
    obtain ⟨jev, hjev, o, rfl, hph, hdur, hdur', -⟩ := forall2_mem h1 (List.mem_filter.1 hev).1
    obtain ⟨n, m, x, y, hx, hy, hnx, hmy, hb⟩ := hw l js o rfl (by rw [hj]; simp) hjev (by
      obtain ⟨j, hj, hs⟩ := hph
      rw [hj, hs]; simp)
    have e1 : a.start.val = x := by rw [hs]; exact has_time hdur.ts hx hnx
    have e2 : a.dur.val = y := by rw [hd]; exact has_time hdur' hy hmy
    obtain ⟨x0, xr⟩ := hnx.facts
    obtain ⟨y0, yr⟩ := hmy.facts
    have e3 : a.stop = a.start + a.dur := by rw [he, hs, hd]
    refine ⟨⟨by rw [e1]; exact x0, by rw [e1]; exact xr, by rw [e2]; exact y0, by rw [e2]; exact yr, e3⟩, ?_⟩
    have hpow : Binary64.rnd (2 ^ (k - 1)) = 2 ^ (k - 1) :=
      Binary64.rnd_rep (x := 2 ^ (k - 1)) (Binary64.pow_pos2 _).le ⟨1, k - 1, by norm_num, by omega, by simp⟩
    have e4 : a.stop.val ≤ 2 ^ (k - 1) := by
      rw [e3]
      show Binary64.rnd (a.start.val + a.dur.val) ≤ _
      rw [e1, e2, ← hpow]
      exact Binary64.rnd_mono (by linarith) hb
    exact lt_of_le_of_lt e4 (zpow_lt_zpow_right₀ (by norm_num) (by omega))
  exact ⟨stats, h3, fun a ha => (key a ha).1, fun a ha => (key a ha).2, h4⟩

section
variable {ν : Type} [DecidableEq ν] {cc : CharClass} {tmin : F64} {j : Json F64} {tr : ClangTrace F64} {k : ℤ}

/-- **C93**, from the document, activity by activity: the self-duration that the program computes is at most the duration, and is
within `(n + 1) 2^(k-53)` of the exact one, for `n` direct children. -/
theorem c93_document_self (hk : -1022 < k) (h : load cc tmin F64.ofInt j = some (.ok tr)) (hw : TimesBefore k j)
    (hlen : (allActivities tr.tree).length ≤ 2 ^ 50) :
    ∀ i ∈ allActivities tr.tree, ∃ children, directChildren tr.tree i = some children ∧
      selfVal tr.tree i ≤ durVal tr.tree i ∧
      |selfVal tr.tree i - (durVal tr.tree i - (children.map (durVal tr.tree)).sum)| ≤ (children.length + 1) * 2 ^ (k - 53) := by
  obtain ⟨stats, hl, hx, hb, hall⟩ := times_stats hk h hw
  rw [hall, List.length_range] at hlen
  intro i hi
  rw [hall, List.mem_range] at hi
  obtain ⟨s, d, h1, h2, h3⟩ := Tree.c93_self_le_duration hx hl hi
  obtain ⟨cs, h4, h5, -⟩ := Tree.c93_self_error hk hx hb hl hlen hi
  refine ⟨cs, h4, ?_, ?_⟩
  · rw [selfVal, durVal, h1, h2]; exact h3
  · rw [← selfVal_eq, ← durVal_eq] at h5
    rw [List.map_congr_left fun c (_ : c ∈ cs) => (durVal_eq tr.tree c)]
    exact h5

/-- **C93**, from the document: the profile by activity type and its percentages. -/
theorem c93_document_profile (hk : -1022 < k) (h : load cc tmin F64.ofInt j = some (.ok tr)) (hw : TimesBefore k j)
    (hlen : (allActivities tr.tree).length ≤ 2 ^ 50) (name : Activity → ν) (o : Out (List (ν × Fl ℚ)))
    (ho : BreakdownOut (FloatBreakdown.addR Binary64.rnd) (.num 0) (programActs name tr.tree) o) :
    ∃ out roots total, o = .ok out ∧ rootActivities tr.tree = some roots ∧
      total = FloatBreakdown.rootDuration Binary64.rnd (roots.map (durVal tr.tree)) ∧
      |total - (roots.map (durVal tr.tree)).sum| ≤ (allActivities tr.tree).length * 2 ^ (k - 53) ∧
      ∀ e ∈ out, ∃ d, e.2 = .num d ∧
        |d - ((ofType name tr.tree e.1).map (exactSelf tr.tree)).sum| ≤ 3 * (allActivities tr.tree).length * 2 ^ (k - 53) ∧
        (2 ^ (-900 : ℤ) ≤ (roots.map (durVal tr.tree)).sum → (roots.map (durVal tr.tree)).sum ≤ 2 ^ (900 : ℤ) →
          1024 * ((allActivities tr.tree).length * 2 ^ (k - 53)) ≤ (roots.map (durVal tr.tree)).sum →
          ∀ p, p = Share.hundredths (Share.percent total d) ∨ p = Share.hundredths (Share.percentTui total d) →
            |(p : ℚ) / 100 - 100 * (((ofType name tr.tree e.1).map (exactSelf tr.tree)).sum / (roots.map (durVal tr.tree)).sum)|
              ≤ 1 / 200 + 1 / 2 ^ 43 + 500 * ((allActivities tr.tree).length * 2 ^ (k - 53)) / (roots.map (durVal tr.tree)).sum) := by
  obtain ⟨stats, hl, hx, hb, hall⟩ := times_stats hk h hw
  have hn : (allActivities tr.tree).length = stats.length := by rw [hall, List.length_range]
  rw [hn] at hlen ⊢
  obtain ⟨out, roots, rfl, hr, h1, h2⟩ := c93_breakdown hk hx hb hl hlen name o ho
  refine ⟨out, roots, _, rfl, hr, rfl, h2, fun e he => ?_⟩
  obtain ⟨d, hd, h3⟩ := h1 e he
  refine ⟨d, hd, h3, fun a1 a2 a3 => ?_⟩
  obtain ⟨d', hd', h4⟩ := c93_percent hk hx hb hl hlen hr ⟨a1, a2⟩ a3 name out ho e he
  rw [hd] at hd'
  cases hd'
  exact h4

end

/-! ### Example -/

def fracEvent (ts dur : Num F64) (name : String) : Json F64 :=
  .obj [("pid", .num (.nat 7)), ("tid", .num (.nat 7)), ("ph", .str "X"), ("ts", .num ts), ("dur", .num dur), ("name", .str name)]

def fracEvents : List (Json F64) :=
  [fracEvent (.float ⟨5 / 2⟩) (.float ⟨1 / 8⟩) "Backend", fracEvent (.nat 2) (.float ⟨9 / 4⟩) "Frontend",
    .obj [("cat", .str ""), ("pid", .num (.nat 7)), ("tid", .num (.nat 7)), ("ts", .num (.nat 0)), ("ph", .str "M"),
      ("name", .str "process_name"), ("args", .obj [("name", .str "clang")])]]

/-- Two and a quarter microseconds, of which an eighth in the backend. -/
def fracDoc : Json F64 :=
  .obj [("traceEvents", .arr fracEvents)]

theorem fracDoc_times : TimesBefore 4 fracDoc := by
  intro l js o e hj ho hx
  simp only [fracDoc, Json.obj.injEq] at e
  subst e
  have hj' : js = fracEvents := by simpa [occ] using hj
  subst hj'
  have r1 : Binary64.Rep (5 / 2) := ⟨5, -1, by norm_num, by norm_num, by norm_num⟩
  have r2 : Binary64.Rep (1 / 8) := ⟨1, -3, by norm_num, by norm_num, by norm_num⟩
  have r3 : Binary64.Rep (9 / 4) := ⟨9, -2, by norm_num, by norm_num, by norm_num⟩
  simp only [fracEvents, List.mem_cons, List.not_mem_nil, or_false, fracEvent, Json.obj.injEq] at ho
  rcases ho with rfl | rfl | rfl
  · exact ⟨_, _, 5 / 2, 1 / 8, by simp [occ], by simp [occ], .float ⟨5 / 2⟩ (by norm_num) r1, .float ⟨1 / 8⟩ (by norm_num) r2, by norm_num⟩
  · exact ⟨_, _, (2 : ℕ), 9 / 4, by simp [occ], by simp [occ], .nat 2 (by norm_num), .float ⟨9 / 4⟩ (by norm_num) r3, by norm_num⟩
  · simp [occ] at hx

theorem fracDoc_loads : ∃ tr, load exCc ⟨-1⟩ F64.ofInt fracDoc = some (.ok tr) ∧ allActivities tr.tree = [0, 1] := by
  have h : (match load exCc ⟨-1⟩ F64.ofInt fracDoc with
      | some (.ok tr) => decide (allActivities tr.tree = [0, 1])
      | _ => false) = true := by decide +kernel
  split at h
  · next tr ht => exact ⟨tr, ht, of_decide_eq_true h⟩
  · simp at h

example : ∃ tr : ClangTrace F64, load exCc ⟨-1⟩ F64.ofInt fracDoc = some (.ok tr) ∧
    (∃ children, directChildren tr.tree 1 = some children ∧ selfVal tr.tree 1 ≤ durVal tr.tree 1) ∧
    ∃ out, BreakdownOut (FloatBreakdown.addR Binary64.rnd) (.num 0) (programActs (fun a : Activity => a.name) tr.tree) (.ok out) ∧
      ∀ e ∈ out, ∃ d, e.2 = .num d ∧
        |d - ((ofType (fun a => a.name) tr.tree e.1).map (exactSelf tr.tree)).sum| ≤ 3 * (2 : ℕ) * 2 ^ ((4 : ℤ) - 53) := by
  obtain ⟨tr, h, hall⟩ := fracDoc_loads
  obtain ⟨o, ho⟩ := breakdown_exists (FloatBreakdown.addR Binary64.rnd) (.num 0) (programActs (fun a : Activity => a.name) tr.tree)
  obtain ⟨out, roots, total, rfl, -, -, -, h1⟩ := c93_document_profile (k := 4) (by norm_num) h fracDoc_times (by rw [hall]; simp) _ _ ho
  obtain ⟨cs, h2, h3, -⟩ := c93_document_self (k := 4) (by norm_num) h fracDoc_times (by rw [hall]; simp) 1 (by rw [hall]; simp)
  rw [hall] at h1
  exact ⟨tr, h, ⟨cs, h2, h3⟩, out, ho, fun e he => (h1 e he).imp fun d hd => ⟨hd.1, hd.2.1⟩⟩

end Verif.Analysis.WholeTrace
