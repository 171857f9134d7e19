/-
C25: the out-of-memory handler (cmakeperf/src/measure/main.rs:275-367), on top of the stop flags of
`Verif.Measure.StopFlags` (C20).

Simplifications: `u64` arithmetic is unbounded; the atomics `elapsed[idx]` are read once per active worker and per
iteration of the loop, so they are a function `el k idx` of the iteration number `k` and the worker: workers may change
them arbitrarily in between.
-/
import Verif.Measure.StopFlags

set_option autoImplicit false
set_option linter.unusedVariables false
set_option linter.unusedSimpArgs false

namespace Verif.Measure

/-- main.rs:372-378 `MonitorStatus` -/
inductive OomStatus where
  | running
  | killedEveryone
  deriving DecidableEq

/-- `Iterator::min_by_key`: the first minimum -/
def minByKey (f : Nat → Nat) : List Nat → Option Nat
  | [] => none
  | x :: xs => match minByKey f xs with
    | none => some x
    | some y => if f y < f x then some y else some x

/-- What the handler returns: workers stopped (in this order), new flags, new margin, status. -/
structure OomResult where
  victims : List Nat
  words : List Nat
  margin : Nat
  status : OomStatus
  deriving DecidableEq

/-- main.rs:336-361 `handle_oom_and_termination`: the `while` loop, at iteration `k`. The loop stops one active worker
per iteration, so `fuel` = number of active workers; without fuel there is no active worker and `expect` (345) fails. -/
def oomLoop (W bkg avail : Nat) (el : Nat → Nat → Nat) : Nat → Nat → List Nat → Nat → Except SPanic OomResult
  | fuel, k, words, margin =>
    if avail < margin then
      let oldThreads := numActive W words + bkg
      match enumerateActive W words with
      | .error e => .error e
      | .ok act =>
        match fuel, minByKey (el k) act with
        | _, none => .error .noActive
        | 0, _ => .error .noActive
        | fuel + 1, some victim =>
          match stopOne W words victim with
          | .error e => .error e
          | .ok words' =>
            let margin' := margin / oldThreads * (oldThreads - 1)
            if numActive W words' = 0 then .ok ⟨[victim], words', margin', .killedEveryone⟩
            else match oomLoop W bkg avail el fuel (k + 1) words' margin' with
              | .error e => .error e
              | .ok r => .ok { r with victims := victim :: r.victims }
    else .ok ⟨[], words, margin, .running⟩

/-- main.rs:336-361 -/
def handleOom (W bkg avail : Nat) (el : Nat → Nat → Nat) (words : List Nat) (margin : Nat) : Except SPanic OomResult :=
  oomLoop W bkg avail el (numActive W words) 0 words margin

/-- main.rs:316-333 `update_oom_threshold`: the new margin -/
def updateThreshold (W bkg last avail : Nat) (words : List Nat) (margin : Nat) : Nat :=
  let newlyUsed := last - avail
  if newlyUsed > margin then
    let threads := numActive W words + bkg
    (newlyUsed / threads + 1) * threads
  else margin

/-- main.rs:251-273: the mutable state of `MonitorServer` -/
structure Monitor where
  words : List Nat
  margin : Nat
  last : Nat
  deriving DecidableEq

/-- main.rs:396 `OOM_MARGIN_PER_THREAD` -/
abbrev OOM_MARGIN_PER_THREAD : Nat := 100000000

/-- main.rs:277-292 `MonitorServer::new`, with `avail` the first memory reading -/
def monitorNew (W bkg concurrency avail : Nat) : Monitor :=
  ⟨flagsNew W concurrency, OOM_MARGIN_PER_THREAD * (concurrency + bkg), avail⟩

/-- main.rs:295-299 `MonitorServer::update` -/
def monitorUpdate (W bkg : Nat) (m : Monitor) (avail : Nat) (el : Nat → Nat → Nat) :
    Except SPanic (Monitor × OomResult) :=
  match handleOom W bkg avail el m.words (updateThreshold W bkg m.last avail m.words m.margin) with
  | .error e => .error e
  | .ok r => .ok (⟨r.words, r.margin, avail⟩, r)

/-! ## Proof -/

theorem minByKey_none (f : Nat → Nat) (l : List Nat) : minByKey f l = none ↔ l = [] := by
  cases l with
  | nil => simp [minByKey]
  | cons x xs =>
    simp only [minByKey, reduceCtorEq, iff_false]
    cases minByKey f xs with
    | none => simp
    | some y => simp only; split <;> simp

theorem minByKey_spec (f : Nat → Nat) (l : List Nat) : ∀ v, minByKey f l = some v → v ∈ l ∧ ∀ j ∈ l, f v ≤ f j := by
  induction l with
  | nil => intro v h; simp [minByKey] at h
  | cons x xs ih =>
    intro v h
    simp only [minByKey] at h
    cases hm : minByKey f xs with
    | none =>
      rw [hm] at h
      simp only [Option.some.injEq] at h
      subst h
      rw [minByKey_none] at hm
      subst hm
      simp
    | some y =>
      rw [hm] at h
      obtain ⟨h1, h2⟩ := ih y hm
      simp only at h
      split at h
      · simp only [Option.some.injEq] at h
        subst h
        refine ⟨by simp [h1], ?_⟩
        intro j hj
        rcases List.mem_cons.1 hj with rfl | hj
        · omega
        · exact h2 j hj
      · simp only [Option.some.injEq] at h
        subst h
        refine ⟨by simp, ?_⟩
        intro j hj
        rcases List.mem_cons.1 hj with rfl | hj
        · omega
        · have := h2 j hj; omega

/-- The first minimum: ties are broken towards the front of the list. -/
theorem minByKey_first (f : Nat → Nat) (l : List Nat) (hs : l.Pairwise (· < ·)) :
    ∀ v, minByKey f l = some v → ∀ j ∈ l, j < v → f v < f j := by
  induction l with
  | nil => intro v h; simp [minByKey] at h
  | cons x xs ih =>
    intro v h j hj hlt
    rw [List.pairwise_cons] at hs
    simp only [minByKey] at h
    cases hm : minByKey f xs with
    | none =>
      rw [hm] at h
      simp only [Option.some.injEq] at h
      subst h
      rw [minByKey_none] at hm
      subst hm
      simp at hj; omega
    | some y =>
      rw [hm] at h
      simp only at h
      split at h
      · simp only [Option.some.injEq] at h
        subst h
        rcases List.mem_cons.1 hj with rfl | hj
        · assumption
        · exact ih hs.2 y hm j hj hlt
      · simp only [Option.some.injEq] at h
        subst h
        rcases List.mem_cons.1 hj with rfl | hj
        · omega
        · have := hs.1 j hj; omega

theorem stopMany_snoc (W : Nat) (is : List Nat) (i : Nat) : ∀ (ws ws' ws'' : List Nat), stopMany W ws is = .ok ws' →
    stopOne W ws' i = .ok ws'' → stopMany W ws (is ++ [i]) = .ok ws'' := by
  induction is with
  | nil => intro ws ws' ws'' h1 h2; simp [stopMany] at h1; subst h1; simp [stopMany, h2]
  | cons a as ih =>
    intro ws ws' ws'' h1 h2
    simp only [stopMany, List.cons_append] at h1 ⊢
    cases hs : stopOne W ws a with
    | error e => rw [hs] at h1; cases h1
    | ok w1 => rw [hs] at h1; exact ih w1 ws' ws'' h1 h2

/-- The state of the monitor is the one that follows from stopping `stopped` among `len` workers, and the margin is
`perThread` times the number of threads that may use memory (active workers and assumed background threads). -/
structure Good (W bkg len : Nat) (stopped : List Nat) (perThread : Nat) (words : List Nat) (margin : Nat) : Prop where
  nodup : stopped.Nodup
  lt : ∀ i ∈ stopped, i < len
  words_eq : stopMany W (flagsNew W len) stopped = .ok words
  margin_eq : margin = perThread * (len - stopped.length + bkg)

theorem Good.numActive {W bkg len : Nat} {stopped : List Nat} {p : Nat} {words : List Nat} {margin : Nat} (hW : 0 < W)
    (h : Good W bkg len stopped p words margin) : numActive W words = len - stopped.length := by
  obtain ⟨ws, h1, -, -, h2, -⟩ := c20_stop_flags W len hW stopped h.nodup h.lt
  rw [h.words_eq] at h1; cases h1; exact h2

theorem stopped_length_le {len : Nat} {stopped : List Nat} (hnd : stopped.Nodup) (hlt : ∀ i ∈ stopped, i < len) :
    stopped.length ≤ len := by
  have : stopped.toFinset ⊆ Finset.range len := by
    intro i hi; simp at hi ⊢; exact hlt i hi
  have h2 := Finset.card_le_card this
  rw [List.toFinset_card_of_nodup hnd, Finset.card_range] at h2
  exact h2

/-- The specification of one call of the handler on `len` workers of which `stopped` are already stopped. -/
structure OomSpec (W bkg len avail : Nat) (el : Nat → Nat → Nat) (stopped : List Nat) (p : Nat) (r : OomResult) :
    Prop where
  /-- no worker is stopped twice, only existing ones are -/
  once : (stopped ++ r.victims).Nodup ∧ ∀ i ∈ stopped ++ r.victims, i < len
  /-- the flags raised are exactly those -/
  flags : stopMany W (flagsNew W len) (stopped ++ r.victims) = .ok r.words
  /-- each victim has the least elapsed time among the workers still active at that moment; the first such worker -/
  youngest : ∀ (k v : Nat), r.victims[k]? = some v → ∀ j, j < len → j ∉ stopped ++ r.victims.take k →
    el k v ≤ el k j ∧ (j < v → el k v < el k j)
  /-- the margin follows the number of active threads exactly -/
  margin : r.margin = p * (len - (stopped.length + r.victims.length) + bkg)
  /-- each stop was needed -/
  needed : ∀ k, k < r.victims.length → avail < p * (len - (stopped.length + k) + bkg)
  /-- it stops when there is enough memory... -/
  enough : r.status = .running → r.margin ≤ avail
  /-- ...or when no worker is left -/
  everyone : r.status = .killedEveryone ↔ stopped.length + r.victims.length = len

/-- The stops `vs` made by one call of the handler that is still running: like `OomSpec`, and memory is still short. -/
structure OomStops (bkg len avail : Nat) (el : Nat → Nat → Nat) (stopped : List Nat) (p : Nat) (vs : List Nat) :
    Prop where
  once : (stopped ++ vs).Nodup ∧ ∀ i ∈ stopped ++ vs, i < len
  youngest : ∀ (k v : Nat), vs[k]? = some v → ∀ j, j < len → j ∉ stopped ++ vs.take k →
    el k v ≤ el k j ∧ (j < v → el k v < el k j)
  needed : ∀ k, k ≤ vs.length → avail < p * (len - (stopped.length + k) + bkg)

theorem oomLoop_spec (W bkg len avail : Nat) (hW : 0 < W) (el : Nat → Nat → Nat) (p : Nat) :
    ∀ (fuel k : Nat) (stopped words : List Nat) (margin : Nat),
      Good W bkg len stopped p words margin → stopped.length < len → fuel = len - stopped.length →
      (∃ r, oomLoop W bkg avail el fuel k words margin = .ok r ∧
        OomSpec W bkg len avail (fun i => el (k + i)) stopped p r ∧
        ∀ i, i < r.victims.length → ¬ ∃ b, OnlyLastActive W len (stopped ++ r.victims.take i) b) ∨
      (∃ vs, oomLoop W bkg avail el fuel k words margin = .error .shiftOverflow ∧
        OomStops bkg len avail (fun i => el (k + i)) stopped p vs ∧ ∃ b, OnlyLastActive W len (stopped ++ vs) b) := by
  intro fuel
  induction fuel with
  | zero => intro k stopped words margin hg hlt hf; omega
  | succ fuel ih =>
    intro k stopped words margin hg hlt hf
    have hna := hg.numActive hW
    unfold oomLoop
    by_cases hav : avail < margin
    · rw [if_pos hav]
      by_cases hola : ∃ b, OnlyLastActive W len stopped b
      · right
        refine ⟨[], ?_, ⟨by simpa using ⟨hg.nodup, hg.lt⟩, by simp, ?_⟩, by simpa using hola⟩
        · simp only [c20_enumeration_violated W len hW stopped hg.nodup hg.lt words hg.words_eq hola]
        · intro i hi
          have hi0 : i = 0 := by simpa using hi
          subst hi0
          rw [Nat.add_zero, ← hg.margin_eq]; exact hav
      have hen := c20_enumeration_ok W len hW stopped hg.nodup hg.lt words hg.words_eq hola
      simp only [hen]
      have hmem : ∀ j, j ∈ (List.range len).filter (fun i => decide (i ∉ stopped)) ↔ j < len ∧ j ∉ stopped := by
        intro j; simp
      have hsorted : ((List.range len).filter (fun i => decide (i ∉ stopped))).Pairwise (· < ·) :=
        List.Pairwise.filter _ List.pairwise_lt_range
      have hlenact := length_filter_not_mem len stopped hg.nodup hg.lt
      cases hm : minByKey (el k) ((List.range len).filter (fun i => decide (i ∉ stopped))) with
      | none =>
        rw [minByKey_none] at hm
        rw [hm] at hlenact
        simp at hlenact; omega
      | some v =>
        simp only
        obtain ⟨hv1, hv2⟩ := minByKey_spec _ _ v hm
        have hv3 := minByKey_first _ _ hsorted v hm
        rw [hmem] at hv1
        -- stop succeeds
        obtain ⟨ws0, h1, h2⟩ := stopMany_spec hW stopped (flagsNew_repr W len hW) hg.nodup hg.lt
        rw [hg.words_eq] at h1; cases h1
        obtain ⟨ws', h3, -⟩ := (stopOne_spec hW h2 hv1.1).1 ⟨hv1.1, hv1.2⟩
        rw [h3]
        simp only
        have hnd' : (stopped ++ [v]).Nodup := by
          rw [List.nodup_append]
          refine ⟨hg.nodup, by simp, ?_⟩
          intro a ha b hb; simp at hb; subst hb; rintro rfl; exact hv1.2 ha
        have hlt' : ∀ i ∈ stopped ++ [v], i < len := by
          intro i hi; rcases List.mem_append.1 hi with hi | hi
          · exact hg.lt i hi
          · simp at hi; subst hi; exact hv1.1
        have hsm := stopMany_snoc W stopped v _ _ _ hg.words_eq h3
        have hmargin : margin / (numActive W words + bkg) * (numActive W words + bkg - 1) =
            p * (len - (stopped ++ [v]).length + bkg) := by
          rw [hna, hg.margin_eq, Nat.mul_div_cancel _ (by omega)]
          simp only [List.length_append, List.length_cons, List.length_nil]
          congr 1; omega
        have hg' : Good W bkg len (stopped ++ [v]) p ws' (margin / (numActive W words + bkg) * (numActive W words + bkg - 1)) :=
          ⟨hnd', hlt', hsm, hmargin⟩
        have hna' := hg'.numActive hW
        simp only [List.length_append, List.length_cons, List.length_nil] at hna' hmargin
        have hyoung : ∀ j, j < len → j ∉ stopped → el k v ≤ el k j ∧ (j < v → el k v < el k j) := by
          intro j hj hjs
          have hjm := (hmem j).2 ⟨hj, hjs⟩
          exact ⟨hv2 j hjm, hv3 j hjm⟩
        by_cases hz : numActive W ws' = 0
        · rw [if_pos hz]
          left
          refine ⟨_, rfl, ⟨⟨hnd', hlt'⟩, hsm, ?_, ?_, ?_, by simp, ?_⟩, ?_⟩
          · intro i v' hv' j hj hjs
            cases i with
            | zero =>
              simp at hv'; subst hv'
              simp at hjs
              simpa using hyoung j hj hjs
            | succ i => simp at hv'
          · simpa using hmargin
          · intro i hi
            have hi0 : i = 0 := by simpa using hi
            subst hi0
            rw [Nat.add_zero, ← hg.margin_eq]; exact hav
          · simp; omega
          · intro i hi
            have hi0 : i = 0 := by simpa using hi
            subst hi0; simpa using hola
        · rw [if_neg hz]
          have hih := ih (k + 1) (stopped ++ [v]) ws' _ hg' (by simp; omega) (by simp; omega)
          rcases hih with ⟨r, hr, hspec, hno⟩ | ⟨vs, hr, hspec, hbad⟩
          rotate_left
          · right
            rw [hr]
            refine ⟨v :: vs, rfl, ⟨?_, ?_, ?_⟩, by simpa using hbad⟩
            · have := hspec.once; simpa using this
            · intro i v' hv' j hj hjs
              cases i with
              | zero =>
                simp at hv'; subst hv'
                simp at hjs
                simpa using hyoung j hj hjs
              | succ i =>
                simp only [List.getElem?_cons_succ] at hv'
                have := hspec.youngest i v' hv' j hj (by simpa using hjs)
                simpa [Nat.add_assoc, Nat.add_comm 1 i] using this
            · intro i hi
              simp only [List.length_cons] at hi
              cases i with
              | zero => rw [Nat.add_zero, ← hg.margin_eq]; exact hav
              | succ i =>
                have := hspec.needed i (by omega)
                simp only [List.length_append, List.length_cons, List.length_nil] at this
                rw [show stopped.length + (i + 1) = stopped.length + (0 + 1) + i by omega]; exact this
          left
          rw [hr]
          refine ⟨_, rfl, ⟨?_, ?_, ?_, ?_, ?_, ?_, ?_⟩, ?_⟩
          · have := hspec.once; simpa using this
          · have := hspec.flags; simpa using this
          · intro i v' hv' j hj hjs
            cases i with
            | zero =>
              simp at hv'; subst hv'
              simp at hjs
              simpa using hyoung j hj hjs
            | succ i =>
              simp only [List.getElem?_cons_succ] at hv'
              have := hspec.youngest i v' hv' j hj (by simpa using hjs)
              simpa [Nat.add_assoc, Nat.add_comm 1 i] using this
          · have := hspec.margin
            simp only [List.length_append, List.length_cons, List.length_nil] at this ⊢
            rw [this]; congr 2; omega
          · intro i hi
            simp only [List.length_cons] at hi
            cases i with
            | zero => rw [Nat.add_zero, ← hg.margin_eq]; exact hav
            | succ i =>
              have := hspec.needed i (by omega)
              simp only [List.length_append, List.length_cons, List.length_nil] at this
              rw [show stopped.length + (i + 1) = stopped.length + (0 + 1) + i by omega]; exact this
          · exact hspec.enough
          · have := hspec.everyone
            simp only [List.length_append, List.length_cons, List.length_nil] at this ⊢
            rw [this]; omega
          · intro i hi
            cases i with
            | zero => simpa using hola
            | succ i => simpa using hno i (by simpa using hi)
    · rw [if_neg hav]
      left
      refine ⟨_, rfl, ⟨by simpa using ⟨hg.nodup, hg.lt⟩, by simpa using hg.words_eq, by simp, ?_, by simp, ?_, ?_⟩, by simp⟩
      · simpa using hg.margin_eq
      · intro _; simp only; omega
      · simp; omega

/-- **C25, one call, any number of workers.** The handler either meets its specification, never having met a word whose
last worker is the only active one, or it stops some workers as specified, is still short of memory, and then fails
because such a word exists. -/
theorem c25_oom (W bkg len avail : Nat) (hW : 0 < W) (el : Nat → Nat → Nat) (p : Nat)
    (stopped words : List Nat) (margin : Nat) (hg : Good W bkg len stopped p words margin)
    (hact : stopped.length < len) :
    (∃ r, handleOom W bkg avail el words margin = .ok r ∧ OomSpec W bkg len avail el stopped p r ∧
      ∀ i, i < r.victims.length → ¬ ∃ b, OnlyLastActive W len (stopped ++ r.victims.take i) b) ∨
    (∃ vs, handleOom W bkg avail el words margin = .error .shiftOverflow ∧
      OomStops bkg len avail el stopped p vs ∧ ∃ b, OnlyLastActive W len (stopped ++ vs) b) := by
  have h := oomLoop_spec W bkg len avail hW el p _ 0 stopped words margin hg hact rfl
  unfold handleOom; rw [hg.numActive hW]
  simpa using h

/-- **C25, one call.** For every number of workers below the word size, every set of workers already stopped (not all),
every margin per thread, every memory reading and all elapsed times (which may change during the loop): the handler
returns, stops the youngest workers one at a time, never twice, only while memory is below the margin, scales the margin
with the number of threads, and reports that everyone was killed exactly when no worker is left (`OomSpec`).

With 64 workers or more, see `c25_oom`. -/
theorem c25_oom_below_word (W bkg len avail : Nat) (hW : 0 < W) (hlen : len < W) (el : Nat → Nat → Nat) (p : Nat)
    (stopped words : List Nat) (margin : Nat) (hg : Good W bkg len stopped p words margin)
    (hact : stopped.length < len) :
    ∃ r, handleOom W bkg avail el words margin = .ok r ∧ OomSpec W bkg len avail el stopped p r := by
  rcases c25_oom W bkg len avail hW el p stopped words margin hg hact with ⟨r, h1, h2, -⟩ | ⟨vs, -, -, b, hb, -⟩
  · exact ⟨r, h1, h2⟩
  · have : W - 1 ≤ b * W + (W - 1) := Nat.le_add_left _ _
    omega

/-- **C25, how many.** The number of workers stopped by one call is the least number that brings the margin under the
available memory, or all of them. -/
theorem c25_least_number (W bkg len avail : Nat) (el : Nat → Nat → Nat) (p : Nat) (stopped : List Nat) (r : OomResult)
    (h : OomSpec W bkg len avail el stopped p r) (m : Nat)
    (hm : p * (len - (stopped.length + m) + bkg) ≤ avail) : r.victims.length ≤ m := by
  by_contra hcon
  have := h.needed m (by omega)
  omega

/-- **C25, threshold.** If memory use grew by more than the margin between two readings, the new margin exceeds that
growth and is still the same for every thread; otherwise it does not change. It never decreases here. -/
theorem c25_threshold (W bkg len : Nat) (hW : 0 < W) (last avail p : Nat) (stopped words : List Nat) (margin : Nat)
    (hg : Good W bkg len stopped p words margin) (hact : stopped.length < len) :
    (last - avail ≤ margin → updateThreshold W bkg last avail words margin = margin) ∧
    (last - avail > margin → last - avail < updateThreshold W bkg last avail words margin) ∧
    ∃ p', p ≤ p' ∧ Good W bkg len stopped p' words (updateThreshold W bkg last avail words margin) := by
  have hna := hg.numActive hW
  unfold updateThreshold
  refine ⟨fun h => if_neg (by omega), fun h => ?_, ?_⟩
  · simp only
    rw [if_pos h]
    generalize hT : numActive W words + bkg = T
    have hTpos : 0 < T := by omega
    rw [Nat.add_mul, Nat.one_mul]
    have := Nat.div_add_mod (last - avail) T
    have := Nat.mod_lt (last - avail) hTpos
    rw [Nat.mul_comm (_ / T) T]
    omega
  · simp only
    by_cases h : last - avail > margin
    · rw [if_pos h]
      refine ⟨(last - avail) / (numActive W words + bkg) + 1, ?_, hg.nodup, hg.lt, hg.words_eq, by rw [hna]⟩
      have : p ≤ (last - avail) / (numActive W words + bkg) := by
        rw [Nat.le_div_iff_mul_le (by omega), hna, ← hg.margin_eq]; omega
      omega
    · rw [if_neg h]
      exact ⟨p, Nat.le_refl _, hg⟩

/-- The monitor after a history of memory readings and elapsed-time readings, and the workers it has stopped. -/
inductive History (W bkg len : Nat) : Monitor → List Nat → OomStatus → Prop where
  | new (avail : Nat) : History W bkg len (monitorNew W bkg len avail) [] .running
  | update (m m' : Monitor) (stopped : List Nat) (avail : Nat) (el : Nat → Nat → Nat) (r : OomResult) :
      History W bkg len m stopped .running → monitorUpdate W bkg m avail el = .ok (m', r) →
      History W bkg len m' (stopped ++ r.victims) r.status

theorem history_good (W bkg len : Nat) (hW : 0 < W) (hpos : 0 < len) (m : Monitor)
    (stopped : List Nat) (st : OomStatus) (h : History W bkg len m stopped st) :
    ∃ p, OOM_MARGIN_PER_THREAD ≤ p ∧ Good W bkg len stopped p m.words m.margin ∧
      (st = .killedEveryone ↔ stopped.length = len) ∧ (st = .running → stopped.length < len) := by
  induction h with
  | new avail =>
    exact ⟨_, Nat.le_refl _, ⟨by simp, by simp, rfl, by simp [monitorNew]⟩, by simp; omega, by simpa using hpos⟩
  | update m m' stopped avail el r _ hup ih =>
    obtain ⟨p, hp, hg, -, hrun⟩ := ih
    have hact := hrun rfl
    obtain ⟨-, -, p', hp', hg'⟩ := c25_threshold W bkg len hW m.last avail p stopped m.words m.margin hg hact
    unfold monitorUpdate at hup
    rcases c25_oom W bkg len avail hW el p' stopped m.words _ hg' hact with ⟨r', h1, h2, -⟩ | ⟨vs, h1, -⟩
    rotate_left
    · rw [h1] at hup; cases hup
    rw [h1] at hup
    simp only [Except.ok.injEq, Prod.mk.injEq] at hup
    obtain ⟨rfl, rfl⟩ := hup
    refine ⟨p', by omega, ⟨h2.once.1, h2.once.2, h2.flags, by simpa using h2.margin⟩, ?_, ?_⟩
    · rw [h2.everyone]; simp
    · intro hr
      have hne : ¬ (stopped.length + r'.victims.length = len) := by
        rw [← h2.everyone, hr]; simp
      have := stopped_length_le h2.once.1 h2.once.2
      simp only [List.length_append] at this ⊢
      omega

/-- **C25, whole executions, any number of workers.** From the creation of the monitor, through any sequence of updates
that did not fail and as long as it does not report that everyone was killed, the next update meets the specification for
some margin per thread of at least 100 MB, or fails exactly as in `c25_oom`. -/
theorem c25_every_update (W bkg len : Nat) (hW : 0 < W) (hpos : 0 < len) (m : Monitor)
    (stopped : List Nat) (h : History W bkg len m stopped .running) (avail : Nat) (el : Nat → Nat → Nat) :
    ∃ p, OOM_MARGIN_PER_THREAD ≤ p ∧
      ((∃ m' r, monitorUpdate W bkg m avail el = .ok (m', r) ∧ OomSpec W bkg len avail el stopped p r ∧
        m'.last = avail ∧ m'.words = r.words ∧ m'.margin = r.margin ∧
        ∀ i, i < r.victims.length → ¬ ∃ b, OnlyLastActive W len (stopped ++ r.victims.take i) b) ∨
      (∃ vs, monitorUpdate W bkg m avail el = .error .shiftOverflow ∧
        OomStops bkg len avail el stopped p vs ∧ ∃ b, OnlyLastActive W len (stopped ++ vs) b)) := by
  obtain ⟨p, hp, hg, -, hrun⟩ := history_good W bkg len hW hpos m stopped _ h
  have hact := hrun rfl
  obtain ⟨-, -, p', hp', hg'⟩ := c25_threshold W bkg len hW m.last avail p stopped m.words m.margin hg hact
  refine ⟨p', by omega, ?_⟩
  unfold monitorUpdate
  rcases c25_oom W bkg len avail hW el p' stopped m.words _ hg' hact with ⟨r', h1, h2, h3⟩ | ⟨vs, h1, h2⟩
  · left; rw [h1]; exact ⟨_, r', rfl, h2, rfl, rfl, rfl, h3⟩
  · right; rw [h1]; exact ⟨vs, rfl, h2⟩

/-- **C25, whole executions.** From the creation of the monitor, through any sequence of updates, as long as it does not
report that everyone was killed the next update never panics and meets the specification, for some margin per thread of
at least 100 MB. -/
theorem c25_every_update_below_word (W bkg len : Nat) (hW : 0 < W) (hlen : len < W) (hpos : 0 < len) (m : Monitor)
    (stopped : List Nat) (h : History W bkg len m stopped .running) (avail : Nat) (el : Nat → Nat → Nat) :
    ∃ m' r p, monitorUpdate W bkg m avail el = .ok (m', r) ∧ OOM_MARGIN_PER_THREAD ≤ p ∧
      OomSpec W bkg len avail el stopped p r := by
  obtain ⟨p, hp, hg, -, hrun⟩ := history_good W bkg len hW hpos m stopped _ h
  have hact := hrun rfl
  obtain ⟨-, -, p', hp', hg'⟩ := c25_threshold W bkg len hW m.last avail p stopped m.words m.margin hg hact
  obtain ⟨r', h1, h2⟩ := c25_oom_below_word W bkg len avail hW hlen el p' stopped m.words _ hg' hact
  exact ⟨_, r', p', by unfold monitorUpdate; rw [h1], by omega, h2⟩

/-- **C25 fails with 64 workers** (or any multiple): when the last worker of a word is the only one left in it and
memory is short, choosing a victim overflows a shift. -/
theorem c25_violated (W bkg len avail : Nat) (hW : 0 < W) (el : Nat → Nat → Nat) (p : Nat) (stopped words : List Nat)
    (margin : Nat) (hg : Good W bkg len stopped p words margin) (hbad : ∃ k, OnlyLastActive W len stopped k)
    (hlow : avail < margin) : handleOom W bkg avail el words margin = .error .shiftOverflow := by
  have := c20_enumeration_violated W len hW stopped hg.nodup hg.lt words hg.words_eq hbad
  unfold handleOom oomLoop
  rw [if_pos hlow]
  simp only [this]

/-- Non-vacuity: three workers, 64-bit words, 250 MB left: the margin is 400 MB, and workers 2 then 0 are stopped. -/
example : handleOom 64 1 250000000 (fun _ i => if i = 2 then 1 else if i = 0 then 3 else 5) (flagsNew 64 3) 400000000 =
    .ok ⟨[2, 0], [2], 200000000, .running⟩ := by with_unfolding_all rfl

example : Good 64 1 3 [] 100000000 (flagsNew 64 3) 400000000 := ⟨by simp, by simp, rfl, rfl⟩

end Verif.Measure
