/-
C81: the stop flags without sequential consistency.
Stop requests of the main thread to the workers (cmakeperf/src/measure/main.rs:443-458, worker.rs:445-468,
mod.rs:218-272), on the memory of `Measure/WeakMemory`. Each word of flags is written by the main thread only.
Besides the flags, the main thread writes other data, with `Relaxed` ordering; workers read it.
Simplification: `must_stop` is one step (its fence only changes what the calling thread knows, so that nothing of what others do
in between matters); the words of `stop_all` are stored one by one, with any steps of the workers in between.
-/
import Verif.Measure.WeakMemory
import Verif.Measure.StopFlags

set_option autoImplicit false
set_option linter.unusedVariables false
set_option linter.unusedSimpArgs false
set_option linter.unusedSectionVars false

namespace Verif.Measure.WeakStop

open Function (update)
open Verif.Measure.Weak (Ord View Msg Mem TView Load stored)

/-- Words of flags (mod.rs:218 `StopFlags`), and other data -/
inductive SLoc where
  | word (k : Nat)
  | data (d : Nat)
  deriving DecidableEq

structure SSt (n : Nat) where
  mem : Mem SLoc
  mview : TView SLoc
  views : Fin n → TView SLoc
  /-- the next word to be stored by `stop_all()`, if it is running -/
  stopping : Option Nat

variable {n : Nat}

/-- What happens, as seen from outside -/
inductive Act (n : Nat) where
  /-- the main thread writes a datum -/
  | write (d v : Nat)
  /-- call of `stop(w)` -/
  | stop (w : Fin n)
  /-- call of `stop_all()` -/
  | stopAll
  /-- a step of the loop of `stop_all()` -/
  | stopWord
  | stopEnd
  /-- `must_stop()` returns in a worker -/
  | mustStop (w : Fin n) (raised : Bool)
  /-- a worker reads the `i`th value that was written to a datum (0 is the initial value) -/
  | read (w : Fin n) (d i : Nat)
  /-- a worker learns all that the main thread knows, by other means -/
  | hear (w : Fin n)
  /-- the main thread learns what a worker knows -/
  | tell (w : Fin n)

/-- The orderings: of the store of `stop`, of the fence of `stop_all`, of the fence of `must_stop` (`relaxed`: none) -/
structure Orders where
  stop : Ord
  stopAll : Ord
  mustStop : Ord

/-- Those of the code: main.rs:448 `Release`, main.rs:453 `Release`, worker.rs:466 `Acquire` -/
def code : Orders := ⟨.sync, .sync, .sync⟩

/-- mod.rs:223-231: all the workers are active; the data have been written once, before the threads were spawned -/
def sinit (W n : Nat) : SSt n where
  mem := fun l => match l with
    | .word k => match (flagsNew W n)[k]? with
      | some v => [⟨v, fun _ => 0⟩]
      | none => []
    | .data _ => [⟨0, fun _ => 0⟩]
  mview := ⟨fun _ => 0, fun _ => 0, fun _ => 0⟩
  views := fun _ => ⟨fun _ => 0, fun _ => 0, fun _ => 0⟩
  stopping := none

/-- An acquire fence, if there is one -/
def _root_.Verif.Measure.Weak.TView.fence (t : TView SLoc) : Ord → TView SLoc
  | .sync => t.fenceAcquire
  | .relaxed => t

/-- A release fence, if there is one -/
def _root_.Verif.Measure.Weak.TView.publishFence (t : TView SLoc) : Ord → TView SLoc
  | .sync => t.fenceRelease
  | .relaxed => t

/-- One step; `W` is the number of bits of a word -/
inductive SStep (o : Orders) (W : Nat) : SSt n → Act n → SSt n → Prop where
  | write (s : SSt n) (d v : Nat) :
      SStep o W s (.write d v)
        { s with mem := stored .relaxed s.mem s.mview (.data d) v, mview := s.mview.store s.mem (.data d) }
  /-- main.rs:443-449; the assertion holds -/
  | stop (s : SSt n) (w : Fin n) (old : Nat) (t : TView SLoc) (hs : s.stopping = none)
      (hl : Load .relaxed s.mem (.word (w / W)) s.mview old t) (ha : old &&& 1 <<< (w % W) ≠ 0) :
      SStep o W s (.stop w)
        { s with
          mem := stored o.stop s.mem t (.word (w / W)) (old &&& (2 ^ W - 1 - 1 <<< (w % W)))
          mview := t.store s.mem (.word (w / W)) }
  /-- main.rs:452-453 -/
  | stopAll (s : SSt n) (hs : s.stopping = none) :
      SStep o W s .stopAll
        { s with mview := s.mview.publishFence o.stopAll, stopping := some 0 }
  /-- main.rs:454-456 -/
  | stopWord (s : SSt n) (k : Nat) (hs : s.stopping = some k) (hk : k < (flagsNew W n).length) :
      SStep o W s .stopWord
        { s with
          mem := stored .relaxed s.mem s.mview (.word k) 0, mview := s.mview.store s.mem (.word k), stopping := some (k + 1) }
  | stopEnd (s : SSt n) (k : Nat) (hs : s.stopping = some k) (hk : ¬ k < (flagsNew W n).length) :
      SStep o W s .stopEnd { s with stopping := none }
  /-- worker.rs:463-468; mask and word of a worker: mod.rs:239-272 -/
  | mustStop (s : SSt n) (w : Fin n) (v : Nat) (t : TView SLoc) (hl : Load .relaxed s.mem (.word (w / W)) (s.views w) v t) :
      SStep o W s (.mustStop w (decide (v &&& 1 <<< (w % W) = 0)))
        { s with views := update s.views w (if v &&& 1 <<< (w % W) = 0 then t.fence o.mustStop else t) }
  | read (s : SSt n) (w : Fin n) (d i : Nat) (m : Msg SLoc) (hi : (s.mem (.data d))[i]? = some m) (hc : (s.views w).cur (.data d) ≤ i) :
      SStep o W s (.read w d i) { s with views := update s.views w ((s.views w).load .relaxed (.data d) i m) }
  | hear (s : SSt n) (w : Fin n) : SStep o W s (.hear w) { s with views := update s.views w ((s.views w).sync s.mview) }
  | tell (s : SSt n) (w : Fin n) : SStep o W s (.tell w) { s with mview := s.mview.sync (s.views w) }

/-- Executions -/
inductive Run (o : Orders) (W : Nat) : SSt n → List (Act n) → SSt n → Prop where
  | nil (s : SSt n) : Run o W s [] s
  | snoc (s s' s'' : SSt n) (as : List (Act n)) (a : Act n) (h : Run o W s as s') (hs : SStep o W s' a s'') :
      Run o W s (as ++ [a]) s''

/-! ## Specification -/

/-- How many times a datum has been written -/
def writes (d : Nat) (as : List (Act n)) : Nat :=
  as.countP fun a => match a with | .write d' _ => d' == d | _ => false

/-- A stop of worker `w` has been asked for -/
def Asked (w : Fin n) (as : List (Act n)) : Prop := .stop w ∈ as ∨ .stopAll ∈ as

/-! ## Basic facts -/

open Verif.Measure.Weak (stored_same stored_other bump_le le_bump join_left join_right load_cur getElem?_append_one)

theorem mask_iff (v b : Nat) : v &&& 1 <<< b = 0 ↔ v.testBit b = false := by
  rw [Nat.one_shiftLeft]; exact and_mask_eq_zero v b

theorem run_append {o : Orders} {W : Nat} {s s'' : SSt n} {as bs : List (Act n)} (h : Run o W s (as ++ bs) s'') :
    ∃ s', Run o W s as s' ∧ Run o W s' bs s'' := by
  generalize e : as ++ bs = cs at h
  induction h generalizing bs with
  | nil =>
    obtain ⟨rfl, rfl⟩ := List.append_eq_nil_iff.1 e
    exact ⟨_, .nil _, .nil _⟩
  | snoc s1 s2 cs' a h hs ih =>
    rcases List.eq_nil_or_concat bs with rfl | ⟨bs', b, rfl⟩
    · rw [List.append_nil] at e
      subst e
      exact ⟨_, .snoc _ _ _ _ _ h hs, .nil _⟩
    · rw [List.concat_eq_append, ← List.append_assoc] at e
      obtain ⟨e1, e2⟩ := List.append_inj' e rfl
      obtain ⟨s', h1, h2⟩ := ih e1
      cases e2
      exact ⟨s', h1, by rw [List.concat_eq_append]; exact .snoc _ _ _ _ _ h2 hs⟩

theorem run_one {o : Orders} {W : Nat} {s s' : SSt n} {a : Act n} (h : Run o W s [a] s') : SStep o W s a s' := by
  generalize e : [a] = cs at h
  cases h with
  | nil => cases e
  | snoc s1 _ as b h hs =>
    have : as = [] ∧ b = a := by
      cases as with
      | nil => simpa using e.symm
      | cons x xs => simp at e
    obtain ⟨rfl, rfl⟩ := this
    generalize e' : ([] : List (Act n)) = cs at h
    cases h with
    | nil => exact hs
    | snoc => simp at e'

/-- Splits a trace at an action. -/
theorem run_split {o : Orders} {W : Nat} {s s'' : SSt n} {as bs : List (Act n)} {a : Act n} (h : Run o W s (as ++ a :: bs) s'') :
    ∃ s1 s2, Run o W s as s1 ∧ SStep o W s1 a s2 ∧ Run o W s2 bs s'' := by
  obtain ⟨s1, h1, h2⟩ := run_append h
  rw [← List.singleton_append] at h2
  obtain ⟨s2, h3, h4⟩ := run_append h2
  exact ⟨s1, s2, h1, run_one h3, h4⟩

/-- Memory only grows. -/
def Grows (m m' : Mem SLoc) : Prop := ∀ (l : SLoc) (i : Nat) (x : Msg SLoc), (m l)[i]? = some x → (m' l)[i]? = some x

theorem grows_stored (o : Ord) (mem : Mem SLoc) (t : TView SLoc) (l : SLoc) (v : Nat) : Grows mem (stored o mem t l v) := by
  intro k i x h
  by_cases e : k = l
  · subst e
    rw [stored_same, List.getElem?_append_left (List.getElem?_eq_some_iff.1 h).1]; exact h
  · rw [stored_other _ _ _ _ _ _ e]; exact h

theorem step_grows {o : Orders} {W : Nat} {s s' : SSt n} {a : Act n} (h : SStep o W s a s') : Grows s.mem s'.mem := by
  cases h with
  | write => exact grows_stored _ _ _ _ _
  | stop => exact grows_stored _ _ _ _ _
  | stopWord => exact grows_stored _ _ _ _ _
  | stopAll => exact fun _ _ _ h => h
  | stopEnd => exact fun _ _ _ h => h
  | mustStop => exact fun _ _ _ h => h
  | read => exact fun _ _ _ h => h
  | hear => exact fun _ _ _ h => h
  | tell => exact fun _ _ _ h => h

theorem update_cur {views : Fin n → TView SLoc} {w : Fin n} {t : TView SLoc} (h : ∀ l, (views w).cur l ≤ t.cur l) (u : Fin n)
    (l : SLoc) : (views u).cur l ≤ (update views w t u).cur l := by
  by_cases e : u = w
  · subst e; simpa using h l
  · simp [e]

theorem fence_cur (t : TView SLoc) (o : Ord) (l : SLoc) : t.cur l ≤ (t.fence o).cur l := by
  cases o
  · exact Nat.le_refl _
  · exact join_left t.cur t.acq l

/-- What a worker knows only grows. -/
theorem step_cur {o : Orders} {W : Nat} {s s' : SSt n} {a : Act n} (h : SStep o W s a s') (w : Fin n) (l : SLoc) :
    (s.views w).cur l ≤ (s'.views w).cur l := by
  cases h with
  | write => exact Nat.le_refl _
  | stop => exact Nat.le_refl _
  | stopWord => exact Nat.le_refl _
  | stopAll => exact Nat.le_refl _
  | stopEnd => exact Nat.le_refl _
  | mustStop u v t hl =>
    refine update_cur (fun k => ?_) w l
    cases hl with
    | mk i m hi hc =>
      split
      · exact (load_cur _ _ _ _ _ _).trans (fence_cur _ _ _)
      · exact load_cur _ _ _ _ _ _
  | read u d i m hi hc => exact update_cur (fun k => load_cur _ _ _ _ _ _) w l
  | hear u => exact update_cur (fun k => join_left _ _ _) w l
  | tell => exact Nat.le_refl _

theorem run_cur {o : Orders} {W : Nat} {s s' : SSt n} {as : List (Act n)} (h : Run o W s as s') (w : Fin n) (l : SLoc) :
    (s.views w).cur l ≤ (s'.views w).cur l := by
  induction h with
  | nil => exact Nat.le_refl _
  | snoc s1 s2 as a _ hs ih => exact ih.trans (step_cur hs w l)

theorem run_grows {o : Orders} {W : Nat} {s s' : SSt n} {as : List (Act n)} (h : Run o W s as s') : Grows s.mem s'.mem := by
  induction h with
  | nil => exact fun _ _ _ h => h
  | snoc s1 s2 as a _ hs ih => exact fun l i x h => step_grows hs l i x (ih l i x h)

/-! ## Invariant -/

/-- Bit of a worker in a word -/
def bit (W : Nat) (w : Fin n) (v : Nat) : Bool := v.testBit (w % W)

/-- `stop_all()` has gone past this word. -/
def Past (stopping : Option Nat) (k : Nat) : Prop :=
  match stopping with
  | none => True
  | some j => k < j

structure SInv (W : Nat) (as : List (Act n)) (s : SSt n) : Prop where
  size : ∀ (k i : Nat) (m : Msg SLoc), (s.mem (.word k))[i]? = some m → m.val < 2 ^ W
  some_ : ∀ k, k < (flagsNew W n).length → 0 < (s.mem (.word k)).length
  mono : ∀ (k i j : Nat) (x y : Msg SLoc) (b : Nat), i ≤ j → (s.mem (.word k))[i]? = some x → (s.mem (.word k))[j]? = some y → y.val.testBit b = true →
    x.val.testBit b = true
  mcur : ∀ l, (s.mem l).length ≤ s.mview.cur l + 1
  asked : ∀ w : Fin n, ¬ Asked w as → ∀ (i : Nat) (m : Msg SLoc), (s.mem (.word (w / W)))[i]? = some m → bit W w m.val = true
  running : s.stopping ≠ none → .stopAll ∈ as
  cleared : ∀ w : Fin n, (.stop w ∈ as ∨ (.stopAll ∈ as ∧ Past s.stopping (w / W))) →
    ∀ m : Msg SLoc, (s.mem (.word (w / W)))[(s.mem (.word (w / W))).length - 1]? = some m → bit W w m.val = false
  data : ∀ d, (s.mem (.data d)).length = writes d as + 1

theorem word_lt (W : Nat) (hW : 0 < W) (w : Fin n) : w.val / W < (flagsNew W n).length := by
  have h := (flagsNew_repr W n hW).len_le
  rw [Nat.div_lt_iff_lt_mul hW]
  have := w.isLt
  omega

theorem sinv_init (W : Nat) (hW : 0 < W) : SInv W [] (sinit W n) := by
  have hr := flagsNew_repr W n hW
  have key : ∀ (k i : Nat) (m : Msg SLoc), ((sinit W n).mem (.word k))[i]? = some m → i = 0 ∧ (flagsNew W n)[k]? = some m.val := by
    intro k i m h
    simp only [sinit] at h
    split at h
    · rename_i v hv
      cases i with
      | zero => simp at h; subst h; exact ⟨rfl, hv⟩
      | succ i => simp at h
    · simp at h
  refine ⟨?_, ?_, ?_, ?_, ?_, fun h => absurd rfl h, ?_, fun d => rfl⟩
  · intro k i m h; exact hr.size k _ (key k i m h).2
  · intro k hk
    simp only [sinit]
    rw [List.getElem?_eq_getElem hk]; simp
  · intro k i j x y b hij hx hy h
    obtain ⟨rfl, h1⟩ := key _ _ _ hx
    obtain ⟨rfl, h2⟩ := key _ _ _ hy
    rw [hx] at hy; cases hy; exact h
  · intro l
    simp only [sinit]
    split
    · split <;> simp
    · simp
  · intro w _ i m h
    obtain ⟨-, h⟩ := key _ _ _ h
    refine (hr.bits _ _ _ h (Nat.mod_lt _ hW)).2 ?_
    have : w.val / W * W + w.val % W = w.val := by rw [Nat.mul_comm]; exact Nat.div_add_mod _ _
    show _ < n
    rw [this]; exact w.isLt
  · intro w h
    rcases h with h | ⟨h, -⟩ <;> simp at h

/-- The main thread always reads the latest value of a word. -/
theorem SInv.load {W : Nat} {as : List (Act n)} {s : SSt n} (h : SInv W as s) {l : SLoc} {v : Nat} {t : TView SLoc}
    (hl : Load .relaxed s.mem l s.mview v t) :
    ∃ m, (s.mem l)[(s.mem l).length - 1]? = some m ∧ m.val = v ∧ ∀ k, s.mview.cur k ≤ t.cur k := by
  cases hl with
  | mk i m hi hc =>
    have hlt := (List.getElem?_eq_some_iff.1 hi).1
    have := h.mcur l
    have e : (s.mem l).length - 1 = i := by omega
    exact ⟨m, by rw [e]; exact hi, rfl, fun k => load_cur _ _ _ _ _ _⟩

theorem asked_snoc {w : Fin n} {as : List (Act n)} {a : Act n} (h : ¬ Asked w (as ++ [a])) : ¬ Asked w as := by
  intro h'
  refine h ?_
  rcases h' with h' | h'
  · exact .inl (by simp [h'])
  · exact .inr (by simp [h'])

theorem writes_snoc (d : Nat) (as : List (Act n)) (a : Act n) (h : ∀ v, a ≠ .write d v) : writes d (as ++ [a]) = writes d as := by
  unfold writes
  rw [List.countP_append, List.countP_singleton, if_neg, Nat.add_zero]
  cases a <;> simp
  rename_i d' v
  rintro rfl
  exact h v rfl

/-- Steps that change neither the memory nor `stop_all()` -/
theorem SInv.quiet {W : Nat} {as : List (Act n)} {s : SSt n} (h : SInv W as s) (a : Act n) (mview : TView SLoc)
    (views : Fin n → TView SLoc) (hw : ∀ d v, a ≠ .write d v) (hs : ∀ w, a ≠ .stop w) (ha : a ≠ .stopAll)
    (hv : ∀ l, s.mview.cur l ≤ mview.cur l) : SInv W (as ++ [a]) { s with mview := mview, views := views } := by
  refine ⟨h.size, h.some_, h.mono, fun l => ?_, fun w hw => h.asked w (asked_snoc hw), fun e => ?_, fun w hc => h.cleared w ?_,
    fun d => ?_⟩
  · have := h.mcur l; have := hv l; simp only; omega
  · have := h.running e; simp [this]
  · rcases hc with hc | ⟨hc, hp⟩
    · simp only [List.mem_append, List.mem_singleton] at hc
      rcases hc with hc | hc
      · exact .inl hc
      · exact absurd hc.symm (hs w)
    · simp only [List.mem_append, List.mem_singleton] at hc
      rcases hc with hc | hc
      · exact .inr ⟨hc, hp⟩
      · exact absurd hc.symm ha
  · rw [writes_snoc d as a (hw d)]; exact h.data d

/-- A store of a word by the main thread, which only clears bits -/
theorem SInv.word {W : Nat} {as : List (Act n)} {s : SSt n} (h : SInv W as s) (a : Act n) (o : Ord) (t : TView SLoc) (k v : Nat)
    (stopping : Option Nat) (ht : ∀ l, s.mview.cur l ≤ t.cur l) (hw : ∀ d v, a ≠ .write d v)
    (hsub : ∀ m : Msg SLoc, (s.mem (.word k))[(s.mem (.word k)).length - 1]? = some m → ∀ b, v.testBit b = true → m.val.testBit b = true)
    (hk : 0 < (s.mem (.word k)).length)
    (hv : v < 2 ^ W)
    (hask : ∀ w : Fin n, w.val / W = k → ¬ Asked w (as ++ [a]) → ∀ m : Msg SLoc,
      (s.mem (.word k))[(s.mem (.word k)).length - 1]? = some m → bit W w m.val = true → bit W w v = true)
    (hrun : stopping ≠ none → .stopAll ∈ as ++ [a])
    (hclear : ∀ w : Fin n, w.val / W = k → (.stop w ∈ as ++ [a] ∨ (.stopAll ∈ as ++ [a] ∧ Past stopping (w / W))) →
      bit W w v = false)
    (hother : ∀ w : Fin n, w.val / W ≠ k → (.stop w ∈ as ++ [a] ∨ (.stopAll ∈ as ++ [a] ∧ Past stopping (w / W))) →
      (.stop w ∈ as ∨ (.stopAll ∈ as ∧ Past s.stopping (w / W)))) :
    SInv W (as ++ [a]) { s with mem := stored o s.mem t (.word k) v, mview := t.store s.mem (.word k), stopping := stopping } := by
  have es := stored_same o s.mem t (.word k) v
  have eo : ∀ j, j ≠ k → stored o s.mem t (.word k) v (.word j) = s.mem (.word j) :=
    fun j hj => stored_other _ _ _ _ _ _ (by simpa using hj)
  have ed : ∀ d, stored o s.mem t (.word k) v (.data d) = s.mem (.data d) := fun d => stored_other _ _ _ _ _ _ (by simp)
  have hlast : ∃ m, (s.mem (.word k))[(s.mem (.word k)).length - 1]? = some m :=
    ⟨_, List.getElem?_eq_getElem (by omega)⟩
  obtain ⟨ml, hml⟩ := hlast
  refine ⟨?_, ?_, ?_, ?_, ?_, hrun, ?_, ?_⟩
  · intro j i m hm
    simp only at hm
    by_cases e : j = k
    · subst e
      rw [es] at hm
      rcases getElem?_append_one _ _ _ _ hm with hm | ⟨rfl, rfl⟩
      · exact h.size _ _ _ hm
      · exact hv
    · rw [eo j e] at hm; exact h.size _ _ _ hm
  · intro j hj
    by_cases e : j = k
    · subst e; simp [es]
    · simp only [eo j e]; exact h.some_ j hj
  · intro j i i' x y b hii hx hy hb
    simp only at hx hy
    by_cases e : j = k
    · subst e
      rw [es] at hx hy
      rcases getElem?_append_one _ _ _ _ hx with hx | ⟨rfl, rfl⟩
      · rcases getElem?_append_one _ _ _ _ hy with hy | ⟨rfl, rfl⟩
        · exact h.mono _ _ _ _ _ _ hii hx hy hb
        · have hlt := (List.getElem?_eq_some_iff.1 hx).1
          exact h.mono _ _ _ _ _ _ (by omega) hx hml (hsub ml hml b hb)
      · rcases getElem?_append_one _ _ _ _ hy with hy | ⟨_, rfl⟩
        · have hlt := (List.getElem?_eq_some_iff.1 hy).1
          omega
        · exact hb
    · rw [eo j e] at hx hy; exact h.mono _ _ _ _ _ _ hii hx hy hb
  · intro l
    by_cases e : l = .word k
    · subst e
      simp only [es, List.length_append, List.length_singleton]
      have := le_bump t.cur (.word k) (s.mem (.word k)).length
      simp only [TView.store]
      omega
    · simp only
      rw [stored_other _ _ _ _ _ _ e]
      have h1 := h.mcur l
      have h2 := ht l
      have h3 := bump_le t.cur (.word k) l (s.mem (.word k)).length
      simp only [TView.store]
      omega
  · intro w hw i m hm
    simp only at hm
    by_cases e : w.val / W = k
    · rw [e, es] at hm
      have hold := h.asked w (asked_snoc hw)
      rw [e] at hold
      rcases getElem?_append_one _ _ _ _ hm with hm | ⟨rfl, rfl⟩
      · exact hold _ _ hm
      · exact hask w e hw ml hml (hold _ _ hml)
    · rw [eo _ e] at hm; exact h.asked w (asked_snoc hw) _ _ hm
  · intro w hc m hm
    simp only at hm hc
    by_cases e : w.val / W = k
    · rw [e, es] at hm
      simp at hm
      subst hm
      exact hclear w e hc
    · rw [eo _ e] at hm
      exact h.cleared w (hother w e hc) m hm
  · intro d
    simp only [ed]
    rw [writes_snoc d as a (hw d)]; exact h.data d

theorem SInv.step {o : Orders} {W : Nat} (hW : 0 < W) {as : List (Act n)} {s s' : SSt n} {a : Act n} (h : SInv W as s)
    (hs : SStep o W s a s') : SInv W (as ++ [a]) s' := by
  cases hs with
  | write d v =>
    have es := stored_same .relaxed s.mem s.mview (.data d) v
    have eo : ∀ l, l ≠ .data d → stored .relaxed s.mem s.mview (.data d) v l = s.mem l :=
      fun l hl => stored_other _ _ _ _ _ _ hl
    have ew : ∀ j, stored .relaxed s.mem s.mview (.data d) v (.word j) = s.mem (.word j) := fun j => eo _ (by simp)
    have hst : ∀ w : Fin n, Act.stop w ∈ as ++ [Act.write d v] → Act.stop w ∈ as := by intro w hw; simpa using hw
    have hall : (Act.stopAll : Act n) ∈ as ++ [Act.write d v] → Act.stopAll ∈ as := by intro hw; simpa using hw
    refine ⟨?_, ?_, ?_, ?_, ?_, fun e => ?_, ?_, ?_⟩
    · intro k i m hm; simp only [ew] at hm; exact h.size _ _ _ hm
    · intro k hk; simp only [ew]; exact h.some_ k hk
    · intro k i j x y b hij hx hy; simp only [ew] at hx hy; exact h.mono _ _ _ _ _ _ hij hx hy
    · intro l
      by_cases e : l = .data d
      · subst e
        simp only [es, List.length_append, List.length_singleton]
        have := le_bump s.mview.cur (.data d) (s.mem (.data d)).length
        simp only [TView.store]
        omega
      · simp only
        rw [eo l e]
        have h1 := h.mcur l
        have h3 := bump_le s.mview.cur (.data d) l (s.mem (.data d)).length
        simp only [TView.store]
        omega
    · intro w hw i m hm; simp only [ew] at hm; exact h.asked w (asked_snoc hw) _ _ hm
    · have := h.running e; simp [this]
    · intro w hc m hm
      simp only [ew] at hm
      refine h.cleared w ?_ m hm
      rcases hc with hc | ⟨hc, hp⟩
      · exact .inl (hst w hc)
      · exact .inr ⟨hall hc, hp⟩
    · intro d'
      by_cases e : d' = d
      · subst e
        simp only [es, List.length_append, List.length_singleton, h.data]
        simp [writes, List.countP_append]
      · simp only
        rw [eo _ (by simpa using e), h.data, writes_snoc]
        intro v' hv'
        cases hv'
        exact e rfl
  | stop w old t hn hl ha =>
    obtain ⟨m0, hm0, rfl, ht⟩ := h.load hl
    have hsz := h.size _ _ _ hm0
    have hb := Nat.mod_lt w.val hW
    have hcb := fun j => clear_bit W m0.val (w.val % W) j hsz hb
    refine h.word _ _ _ _ _ _ ht (by simp) ?_ (h.some_ _ (word_lt W hW w)) (lt_of_le_of_lt Nat.and_le_left hsz) ?_ ?_ ?_ ?_
    · intro m hm b hbit
      rw [hm0] at hm; cases hm
      rw [hcb] at hbit
      simp at hbit
      exact hbit.1
    · intro w' hk hna m hm hbit
      rw [hm0] at hm; cases hm
      unfold bit at hbit ⊢
      rw [hcb, hbit]
      have : w'.val % W ≠ w.val % W := by
        intro e
        refine hna (.inl ?_)
        have : w' = w := by
          apply Fin.ext
          rw [← Nat.div_add_mod w'.val W, ← Nat.div_add_mod w.val W, hk, e]
        subst this
        simp
      simp [this]
    · intro e; exact absurd hn e
    · intro w' hk hc
      unfold bit
      rw [hcb]
      by_cases e : w'.val % W = w.val % W
      · simp [e]
      · have : .stop w' ∈ as ∨ (.stopAll ∈ as ∧ Past s.stopping (w' / W)) := by
          rcases hc with hc | ⟨hc, hp⟩
          · simp only [List.mem_append, List.mem_singleton, Act.stop.injEq] at hc
            rcases hc with hc | rfl
            · exact .inl hc
            · exact absurd rfl e
          · exact .inr ⟨by simpa using hc, hp⟩
        have := h.cleared w' this m0 (by rw [hk]; exact hm0)
        unfold bit at this
        simp [this]
    · intro w' hk hc
      rcases hc with hc | ⟨hc, hp⟩
      · simp only [List.mem_append, List.mem_singleton, Act.stop.injEq] at hc
        rcases hc with hc | rfl
        · exact .inl hc
        · exact absurd rfl hk
      · exact .inr ⟨by simpa using hc, hp⟩
  | stopAll hn =>
    refine ⟨h.size, h.some_, h.mono, fun l => ?_, fun w hw => h.asked w (asked_snoc hw), fun e => by simp, fun w hc => ?_, fun d => ?_⟩
    · have := h.mcur l
      cases o.stopAll <;> exact this
    · refine h.cleared w ?_
      rcases hc with hc | ⟨hc, hp⟩
      · exact .inl (by simpa using hc)
      · exact absurd hp (Nat.not_lt_zero _)
    · rw [writes_snoc d as _ (by simp)]; exact h.data d
  | stopWord k hk hlt =>
    have hall : .stopAll ∈ as := h.running (by rw [hk]; simp)
    refine h.word _ _ _ _ _ _ (fun _ => Nat.le_refl _) (by simp) ?_ (h.some_ _ hlt) (Nat.two_pow_pos W) ?_ ?_ ?_ ?_
    · intro m hm b hb; simp at hb
    · intro w _ hna; exact absurd (.inr (by simp [hall])) hna
    · intro _; simp [hall]
    · intro w _ _; simp [bit]
    · intro w hne hc
      rcases hc with hc | ⟨hc, hp⟩
      · exact .inl (by simpa using hc)
      · refine .inr ⟨hall, ?_⟩
        rw [hk]
        have hp : w.val / W < k + 1 := hp
        show w.val / W < k
        omega
  | stopEnd k hk hge =>
    have hall : .stopAll ∈ as := h.running (by rw [hk]; simp)
    refine ⟨h.size, h.some_, h.mono, h.mcur, fun w hw => h.asked w (asked_snoc hw), fun e => absurd rfl e, fun w hc => h.cleared w ?_,
      fun d => ?_⟩
    · refine .inr ⟨hall, ?_⟩
      rw [hk]
      have := word_lt W hW w
      show w.val / W < k
      omega
    · rw [writes_snoc d as _ (by simp)]; exact h.data d
  | mustStop w v t hl => exact h.quiet _ s.mview _ (by simp) (by simp) (by simp) (fun _ => Nat.le_refl _)
  | read w d i m hi hc => exact h.quiet _ s.mview _ (by simp) (by simp) (by simp) (fun _ => Nat.le_refl _)
  | hear w => exact h.quiet _ s.mview _ (by simp) (by simp) (by simp) (fun _ => Nat.le_refl _)
  | tell w => exact h.quiet _ _ s.views (by simp) (by simp) (by simp) (fun _ => join_left _ _ _)

theorem sinv_run {o : Orders} {W : Nat} (hW : 0 < W) {as : List (Act n)} {s : SSt n} (h : Run o W (sinit W n) as s) :
    SInv W as s := by
  generalize e : sinit W n = s0 at h
  induction h with
  | nil => subst e; exact sinv_init W hW
  | snoc s1 s2 as a _ hs ih => subst e; exact ih.step hW hs

/-! ## Theorems -/

/-- **C81 (only when asked).** Whatever the orderings, `must_stop()` returns true in a worker only if the main thread has
asked this very worker to stop, or all of them. -/
theorem c81_only_asked (o : Orders) {W : Nat} (hW : 0 < W) {as : List (Act n)} {w : Fin n} {s : SSt n}
    (h : Run o W (sinit W n) (as ++ [.mustStop w true]) s) : Asked w as := by
  obtain ⟨s1, s2, h1, hs, -⟩ := run_split h
  by_contra hn
  have hi := sinv_run hW h1
  generalize e : Act.mustStop w true = a at hs
  cases hs with
  | mustStop w' v t hl =>
    simp only [Act.mustStop.injEq] at e
    obtain ⟨rfl, e⟩ := e
    have e := e.symm
    rw [decide_eq_true_eq, mask_iff] at e
    cases hl with
    | mk i m hm hc =>
      have := hi.asked w hn i m hm
      unfold bit at this
      rw [this] at e; cases e
  | _ => cases e

/-- The worker has seen its flag raised. -/
def Seen (W : Nat) (w : Fin n) (s : SSt n) : Prop :=
  ∃ (i : Nat) (m : Msg SLoc), (s.mem (.word (w / W)))[i]? = some m ∧ bit W w m.val = false ∧ i ≤ (s.views w).cur (.word (w / W))

theorem Seen.run {o : Orders} {W : Nat} {w : Fin n} {s s' : SSt n} {as : List (Act n)} (h : Seen W w s) (hr : Run o W s as s') :
    Seen W w s' := by
  obtain ⟨i, m, h1, h2, h3⟩ := h
  exact ⟨i, m, run_grows hr _ _ _ h1, h2, h3.trans (run_cur hr _ _)⟩

theorem Seen.stop {o : Orders} {W : Nat} {w : Fin n} {s s' : SSt n} {as : List (Act n)} {b : Bool} (h : Seen W w s) (hi : SInv W as s)
    (hs : SStep o W s (.mustStop w b) s') : b = true := by
  obtain ⟨i, m, h1, h2, h3⟩ := h
  generalize e : Act.mustStop w b = a at hs
  cases hs with
  | mustStop w' v t hl =>
    simp only [Act.mustStop.injEq] at e
    obtain ⟨rfl, rfl⟩ := e
    rw [decide_eq_true_eq, mask_iff]
    cases hl with
    | mk j m' hm hc =>
      rw [Bool.eq_false_iff]
      intro hb
      have := hi.mono _ i j m m' _ (by omega) h1 hm hb
      unfold bit at h2
      rw [this] at h2; cases h2
  | _ => cases e

theorem seen_of_stop {o : Orders} {W : Nat} {w : Fin n} {s s' : SSt n} (hs : SStep o W s (.mustStop w true) s') : Seen W w s' := by
  generalize e : Act.mustStop w true = a at hs
  cases hs with
  | mustStop w' v t hl =>
    simp only [Act.mustStop.injEq] at e
    obtain ⟨rfl, e⟩ := e
    have e := e.symm
    rw [decide_eq_true_eq] at e
    cases hl with
    | mk i m hm hc =>
      refine ⟨i, m, hm, (mask_iff _ _).1 e, ?_⟩
      simp only [Function.update_self]
      rw [if_pos e]
      refine le_trans ?_ (fence_cur _ _ _)
      exact le_bump (s.views w).cur _ i
  | _ => cases e

/-- **C81 (latched).** Whatever the orderings, once `must_stop()` has returned true in a worker it always does. -/
theorem c81_latched (o : Orders) {W : Nat} (hW : 0 < W) {as bs : List (Act n)} {w : Fin n} {b : Bool} {s : SSt n}
    (h : Run o W (sinit W n) (as ++ .mustStop w true :: bs ++ [.mustStop w b]) s) : b = true := by
  obtain ⟨s1, s2, h1, hs, -⟩ := run_split h
  obtain ⟨s3, s4, h3, hs3, h4⟩ := run_split h1
  exact ((seen_of_stop hs3).run h4).stop (sinv_run hW h1) hs

/-- After a request, the flag is raised in memory, and the main thread knows it. -/
theorem asked_done {o : Orders} {W : Nat} (hW : 0 < W) {as : List (Act n)} {w : Fin n} {s : SSt n} (h : Run o W (sinit W n) as s)
    (ha : .stop w ∈ as ∨ .stopEnd ∈ as) :
    ∃ (i : Nat) (m : Msg SLoc), (s.mem (.word (w / W)))[i]? = some m ∧ bit W w m.val = false ∧ i ≤ s.mview.cur (.word (w / W)) := by
  have key : ∃ (l1 l2 : List (Act n)) (a : Act n), as = l1 ++ a :: l2 ∧ (a = .stop w ∨ a = .stopEnd) := by
    rcases ha with ha | ha
    · obtain ⟨l1, l2, e⟩ := List.append_of_mem ha; exact ⟨l1, l2, _, e, .inl rfl⟩
    · obtain ⟨l1, l2, e⟩ := List.append_of_mem ha; exact ⟨l1, l2, _, e, .inr rfl⟩
  obtain ⟨l1, l2, a, rfl, hor⟩ := key
  have hfin := sinv_run hW h
  obtain ⟨s1, s2, h1, hs, h2⟩ := run_split h
  have hi := (sinv_run hW h1).step hW hs
  have hc : .stop w ∈ l1 ++ [a] ∨ (.stopAll ∈ l1 ++ [a] ∧ Past s2.stopping (w / W)) := by
    rcases hor with rfl | rfl
    · exact .inl (by simp)
    · right
      generalize e : (Act.stopEnd : Act n) = a at hs
      cases hs with
      | stopEnd k hk hge =>
        have := (sinv_run hW h1).running (by rw [hk]; simp)
        exact ⟨by simp [this], trivial⟩
      | _ => cases e
  have hpos := hi.some_ _ (word_lt W hW w)
  have hm := List.getElem?_eq_getElem (l := s2.mem (.word (w / W))) (i := (s2.mem (.word (w / W))).length - 1) (by omega)
  have hm' := run_grows h2 _ _ _ hm
  refine ⟨_, _, hm', hi.cleared w hc _ hm, ?_⟩
  have := (List.getElem?_eq_some_iff.1 hm').1
  have := hfin.mcur (.word (w / W))
  omega

/-- **C81 (obeyed).** Whatever the orderings, a worker that has heard of the main thread, by any means, after it was asked to
stop -- by `stop()` or by a `stop_all()` that has returned -- is told to stop by `must_stop()`. -/
theorem c81_obeyed (o : Orders) {W : Nat} (hW : 0 < W) {as bs : List (Act n)} {w : Fin n} {b : Bool} {s : SSt n}
    (h : Run o W (sinit W n) (as ++ .hear w :: bs ++ [.mustStop w b]) s) (ha : .stop w ∈ as ∨ .stopEnd ∈ as) : b = true := by
  obtain ⟨s1, s2, h1, hs, -⟩ := run_split h
  obtain ⟨s3, s4, h3, hs3, h4⟩ := run_split h1
  have hseen : Seen W w s4 := by
    obtain ⟨i, m, hm, hb, hc⟩ := asked_done hW h3 ha
    generalize e : Act.hear w = a at hs3
    cases hs3 with
    | hear w' =>
      cases e
      refine ⟨i, m, hm, hb, ?_⟩
      simp only [Function.update_self]
      exact hc.trans (join_right _ _ _)
    | _ => cases e
  exact (hseen.run h4).stop (sinv_run hW h1) hs

/-- Views name values that exist. -/
def Within (mem : Mem SLoc) (v : View SLoc) : Prop := ∀ l, v l ≤ (mem l).length - 1

structure Bounded (s : SSt n) : Prop where
  mcur : Within s.mem s.mview.cur
  macq : Within s.mem s.mview.acq
  mrel : Within s.mem s.mview.rel
  wcur : ∀ w, Within s.mem (s.views w).cur
  wacq : ∀ w, Within s.mem (s.views w).acq
  wrel : ∀ w, Within s.mem (s.views w).rel
  msg : ∀ (l : SLoc) (i : Nat) (m : Msg SLoc), (s.mem l)[i]? = some m → Within s.mem m.view

theorem Within.mono {m m' : Mem SLoc} {v : View SLoc} (h : Within m v) (hl : ∀ l, (m l).length ≤ (m' l).length) : Within m' v :=
  fun l => (h l).trans (Nat.sub_le_sub_right (hl l) 1)

theorem Within.join {m : Mem SLoc} {u v : View SLoc} (h : Within m u) (h' : Within m v) : Within m (u.join v) :=
  fun l => Nat.max_le.2 ⟨h l, h' l⟩

theorem Within.bump {m : Mem SLoc} {u : View SLoc} (h : Within m u) (l : SLoc) (i : Nat) (hi : i ≤ (m l).length - 1) :
    Within m (u.bump l i) := by
  intro k
  unfold View.bump
  split
  · rename_i e; subst e; exact Nat.max_le.2 ⟨h k, hi⟩
  · exact h k

theorem stored_length (o : Ord) (mem : Mem SLoc) (t : TView SLoc) (l : SLoc) (v : Nat) (k : SLoc) :
    (stored o mem t l v k).length = (mem k).length + if k = l then 1 else 0 := by
  by_cases e : k = l
  · subst e; simp [stored_same]
  · rw [stored_other _ _ _ _ _ _ e]; simp [e]

theorem Bounded.one {s : SSt n} (h : Bounded s) (w : Fin n) (t : TView SLoc) (hc : Within s.mem t.cur) (ha : Within s.mem t.acq)
    (hr : Within s.mem t.rel) : Bounded { s with views := update s.views w t } := by
  refine ⟨h.mcur, h.macq, h.mrel, fun u => ?_, fun u => ?_, fun u => ?_, h.msg⟩ <;>
  · by_cases e : u = w
    · subst e; simpa
    · simpa [e] using (by first | exact h.wcur u | exact h.wacq u | exact h.wrel u)

theorem Bounded.store {s : SSt n} (h : Bounded s) (o : Ord) (t : TView SLoc) (l : SLoc) (v : Nat) (x : Option Nat)
    (hc : Within s.mem t.cur) (ha : Within s.mem t.acq) (hr : Within s.mem t.rel) :
    Bounded { s with mem := stored o s.mem t l v, mview := t.store s.mem l, stopping := x } := by
  have hl : ∀ k, (s.mem k).length ≤ (stored o s.mem t l v k).length := fun k => by rw [stored_length]; omega
  have hn : (s.mem l).length ≤ (stored o s.mem t l v l).length - 1 := by rw [stored_length, if_pos rfl]; omega
  refine ⟨(hc.mono hl).bump _ _ hn, (ha.mono hl).bump _ _ hn, hr.mono hl, fun w => (h.wcur w).mono hl, fun w => (h.wacq w).mono hl,
    fun w => (h.wrel w).mono hl, fun k i m hm => ?_⟩
  simp only at hm
  by_cases e : k = l
  · subst e
    rw [stored_same] at hm
    rcases getElem?_append_one _ _ _ _ hm with hm | ⟨rfl, rfl⟩
    · exact (h.msg _ _ _ hm).mono hl
    · refine Within.bump (Within.mono ?_ hl) _ _ hn
      cases o
      · exact hr
      · exact hc
  · rw [stored_other _ _ _ _ _ _ e] at hm
    exact (h.msg _ _ _ hm).mono hl

theorem load_within {mem : Mem SLoc} {t t' : TView SLoc} {l : SLoc} {v : Nat} (hl : Load .relaxed mem l t v t')
    (hc : Within mem t.cur) (ha : Within mem t.acq) (hr : Within mem t.rel)
    (hm : ∀ (l : SLoc) (i : Nat) (m : Msg SLoc), (mem l)[i]? = some m → Within mem m.view) :
    Within mem t'.cur ∧ Within mem t'.acq ∧ Within mem t'.rel := by
  cases hl with
  | mk i m hi _ =>
    have : i ≤ (mem l).length - 1 := by have := (List.getElem?_eq_some_iff.1 hi).1; omega
    exact ⟨hc.bump _ _ this, (ha.bump _ _ this).join (hm _ _ _ hi), hr⟩

theorem bounded_step {o : Orders} {W : Nat} {s s' : SSt n} {a : Act n} (h : Bounded s) (hs : SStep o W s a s') : Bounded s' := by
  cases hs with
  | write d v => exact h.store _ _ _ _ _ h.mcur h.macq h.mrel
  | stop w old t hn hl ha =>
    obtain ⟨h1, h2, h3⟩ := load_within hl h.mcur h.macq h.mrel h.msg
    exact h.store _ _ _ _ _ h1 h2 h3
  | stopAll hn =>
    cases o.stopAll
    · exact ⟨h.mcur, h.macq, h.mrel, h.wcur, h.wacq, h.wrel, h.msg⟩
    · exact ⟨h.mcur, h.macq, h.mcur, h.wcur, h.wacq, h.wrel, h.msg⟩
  | stopWord k hk hlt => exact h.store _ _ _ _ _ h.mcur h.macq h.mrel
  | stopEnd k hk hge => exact ⟨h.mcur, h.macq, h.mrel, h.wcur, h.wacq, h.wrel, h.msg⟩
  | mustStop w v t hl =>
    obtain ⟨h1, h2, h3⟩ := load_within hl (h.wcur w) (h.wacq w) (h.wrel w) h.msg
    split
    · cases o.mustStop
      · exact h.one w _ h1 h2 h3
      · exact h.one w _ (h1.join h2) (h2.join h1) h3
    · exact h.one w _ h1 h2 h3
  | read w d i m hi hc =>
    obtain ⟨h1, h2, h3⟩ := load_within (Load.mk i m hi hc) (h.wcur w) (h.wacq w) (h.wrel w) h.msg
    exact h.one w _ h1 h2 h3
  | hear w => exact h.one w _ ((h.wcur w).join h.mcur) ((h.wacq w).join h.mcur) (h.wrel w)
  | tell w => exact ⟨h.mcur.join (h.wcur w), h.macq.join (h.wcur w), h.mrel, h.wcur, h.wacq, h.wrel, h.msg⟩

theorem bounded_run {o : Orders} {W : Nat} {as : List (Act n)} {s : SSt n} (h : Run o W (sinit W n) as s) : Bounded s := by
  generalize e : sinit W n = s0 at h
  induction h with
  | nil =>
    subst e
    refine ⟨fun _ => Nat.zero_le _, fun _ => Nat.zero_le _, fun _ => Nat.zero_le _, fun _ _ => Nat.zero_le _, fun _ _ => Nat.zero_le _,
      fun _ _ => Nat.zero_le _, fun l i m hm => ?_⟩
    have : m.view = fun _ => 0 := by
      simp only [sinit] at hm
      split at hm
      · split at hm
        · cases i <;> simp at hm; rw [← hm]
        · simp at hm
      · cases i <;> simp at hm; rw [← hm]
    rw [this]
    exact fun _ => Nat.zero_le _
  | snoc s1 s2 as a _ hs ih => subst e; exact bounded_step ih hs

/-- **C81 (no double stop).** Whatever the orderings, when no `stop_all()` is going on, `stop(w)` passes its assertion iff
`w` was never asked to stop: the `Relaxed` load of the word misses nothing. -/
theorem c81_stop_iff (o : Orders) {W : Nat} (hW : 0 < W) {as : List (Act n)} {w : Fin n} {s : SSt n} (h : Run o W (sinit W n) as s)
    (hn : s.stopping = none) : (∃ s', SStep o W s (.stop w) s') ↔ ¬ Asked w as := by
  have hi := sinv_run hW h
  constructor
  · rintro ⟨s', hs⟩ ha
    generalize e : Act.stop w = a at hs
    cases hs with
    | stop w' old t hn' hl hb =>
      cases e
      obtain ⟨m, hm, rfl, -⟩ := hi.load hl
      refine hb ?_
      rw [mask_iff]
      refine hi.cleared w ?_ m hm
      rcases ha with ha | ha
      · exact .inl ha
      · exact .inr ⟨ha, by rw [hn]; trivial⟩
    | _ => cases e
  · intro ha
    have hpos := hi.some_ _ (word_lt W hW w)
    have hm := List.getElem?_eq_getElem (l := s.mem (.word (w / W))) (i := (s.mem (.word (w / W))).length - 1) (by omega)
    have hb := hi.asked w ha _ _ hm
    refine ⟨_, .stop s w _ _ hn (Load.mk _ _ hm ((bounded_run h).mcur _)) ?_⟩
    rw [ne_eq, mask_iff]
    unfold bit at hb
    rw [hb]; simp

/-- What was written before a request is published with it: whoever sees the flag of `w` raised sees at least `v` writes of `d`. -/
structure Pub (W : Nat) (w : Fin n) (d v : Nat) (s : SSt n) : Prop where
  msg : ∀ (i : Nat) (m : Msg SLoc), (s.mem (.word (w / W)))[i]? = some m → bit W w m.val = false → v ≤ m.view (.data d)
  cur : v ≤ s.mview.cur (.data d)
  rel : s.stopping ≠ none → v ≤ s.mview.rel (.data d)

theorem Pub.store {W : Nat} {w : Fin n} {d v : Nat} {s : SSt n} (h : Pub W w d v s) (o : Ord) (t : TView SLoc) (l : SLoc) (x : Nat)
    (st : Option Nat) (hc : v ≤ t.cur (.data d)) (hr : st ≠ none → v ≤ t.rel (.data d))
    (hp : l = .word (w / W) → v ≤ t.publish o (.data d)) :
    Pub W w d v { s with mem := stored o s.mem t l x, mview := t.store s.mem l, stopping := st } := by
  refine ⟨fun i m hm hb => ?_, hc.trans (bump_le _ _ _ _), hr⟩
  simp only at hm
  by_cases e : SLoc.word (w / W) = l
  · subst e
    rw [stored_same] at hm
    rcases getElem?_append_one _ _ _ _ hm with hm | ⟨rfl, rfl⟩
    · exact h.msg i m hm hb
    · exact (hp rfl).trans (bump_le (t.publish o) (.word (w / W)) (.data d) (s.mem (.word (w / W))).length)
  · rw [stored_other _ _ _ _ _ _ e] at hm
    exact h.msg i m hm hb

theorem Pub.step {W : Nat} {w : Fin n} {d v : Nat} {s s' : SSt n} {a : Act n} (h : Pub W w d v s) (hs : SStep code W s a s') :
    Pub W w d v s' := by
  cases hs with
  | write d' x => exact h.store _ _ _ _ _ h.cur h.rel (fun e => (nomatch e))
  | stop w' old t hn hl ha =>
    cases hl with
    | mk i m hi hc =>
      have hcur : v ≤ (s.mview.load .relaxed (.word (w' / W)) i m).cur (.data d) := h.cur.trans (load_cur _ _ _ _ _ _)
      exact h.store _ _ _ _ _ hcur (fun e => absurd hn e) (fun _ => hcur)
  | stopAll hn => exact ⟨h.msg, h.cur, fun _ => h.cur⟩
  | stopWord k hk hlt =>
    have hr := h.rel (by rw [hk]; simp)
    exact h.store _ _ _ _ _ h.cur (fun _ => hr) (fun _ => hr)
  | stopEnd k hk hge => exact ⟨h.msg, h.cur, fun e => absurd rfl e⟩
  | mustStop w' x t hl => exact ⟨h.msg, h.cur, h.rel⟩
  | read w' d' i m hi hc => exact ⟨h.msg, h.cur, h.rel⟩
  | hear w' => exact ⟨h.msg, h.cur, h.rel⟩
  | tell w' => exact ⟨h.msg, h.cur.trans (join_left _ _ _), h.rel⟩

theorem Pub.run {W : Nat} {w : Fin n} {d v : Nat} {s s' : SSt n} {as : List (Act n)} (h : Pub W w d v s) (hs : Run code W s as s') :
    Pub W w d v s' := by
  induction hs with
  | nil => exact h
  | snoc s1 s2 as a _ hs ih => exact ih.step hs

theorem pub_before {o : Orders} {W : Nat} (hW : 0 < W) {as : List (Act n)} {w : Fin n} {d : Nat} {s : SSt n}
    (h : Run o W (sinit W n) as s) (hn : s.stopping = none) (ha : ¬ Asked w as) : Pub W w d (writes d as) s := by
  have hi := sinv_run hW h
  refine ⟨fun i m hm hb => ?_, ?_, fun e => absurd hn e⟩
  · rw [hi.asked w ha i m hm] at hb; cases hb
  · have := hi.mcur (.data d)
    rw [hi.data] at this
    omega

/-- **C81 (visibility).** With the orderings of the code, a worker that has been told to stop sees all that the main thread had
written before it asked it to: it never reads an older value again. -/
theorem c81_visible {W : Nat} (hW : 0 < W) {as bs cs : List (Act n)} {a : Act n} {w : Fin n} {d i : Nat} {s : SSt n}
    (h : Run code W (sinit W n) (as ++ a :: bs ++ .mustStop w true :: cs ++ [.read w d i]) s) (ha : a = .stop w ∨ a = .stopAll)
    (hn : ¬ Asked w as) : writes d as ≤ i := by
  obtain ⟨s5, s6, h5, hr, -⟩ := run_split h
  obtain ⟨s3, s4, h3, hs, h4⟩ := run_split h5
  obtain ⟨s1, s2, h1, ha', h2⟩ := run_split h3
  have hnone : s1.stopping = none := by
    rcases ha with rfl | rfl
    · generalize e : Act.stop w = a at ha'
      cases ha' with
      | stop w' old t hn' hl hb => exact hn'
      | _ => cases e
    · generalize e : (Act.stopAll : Act n) = a at ha'
      cases ha' with
      | stopAll hn' => exact hn'
      | _ => cases e
  have hp := ((pub_before hW h1 hnone hn (d := d)).step ha').run h2
  have hcur : writes d as ≤ (s4.views w).cur (.data d) := by
    generalize e : Act.mustStop w true = b at hs
    cases hs with
    | mustStop w' v t hl =>
      simp only [Act.mustStop.injEq] at e
      obtain ⟨rfl, e⟩ := e
      have e := e.symm
      rw [decide_eq_true_eq] at e
      cases hl with
      | mk j m hm hc =>
        simp only [Function.update_self]
        rw [if_pos e]
        refine (hp.msg j m hm ((mask_iff _ _).1 e)).trans ?_
        show _ ≤ View.join _ _ _
        refine le_trans ?_ (join_right _ _ _)
        exact join_right _ _ _
    | _ => cases e
  have hcur' := hcur.trans (run_cur h4 w (.data d))
  generalize e : Act.read w d i = b at hr
  cases hr with
  | read w' d' i' m hi hc => cases e; exact hcur'.trans hc
  | _ => cases e

/-- A worker that is told to stop, and reads the old value if the orderings allow it -/
theorem stale {o : Orders} {s0 s : SSt 1} {as : List (Act 1)} (h : Run o 64 s0 as s) (k : Nat) (m m' : Msg SLoc)
    (hv : s.views 0 = ⟨fun _ => 0, fun _ => 0, fun _ => 0⟩) (hm : (s.mem (.word 0))[k]? = some m) (h0 : m.val = 0)
    (hs : o.mustStop = .sync → m.view (.data 0) = 0) (hd : (s.mem (.data 0))[0]? = some m') :
    ∃ s', Run o 64 s0 (as ++ [.mustStop 0 true] ++ [.read 0 0 0]) s' := by
  have hc : (s.views 0).cur (.word 0) ≤ k := by rw [hv]; exact Nat.zero_le _
  have h1 := SStep.mustStop (o := o) (W := 64) s 0 m.val _ (Load.mk k m hm hc)
  have e : m.val &&& 1 <<< ((0 : Fin 1).val % 64) = 0 := by rw [h0]; rfl
  rw [decide_eq_true e] at h1
  refine ⟨_, .snoc _ _ _ _ _ (.snoc _ _ _ _ _ h h1) (.read _ 0 0 0 m' hd ?_)⟩
  simp only [Function.update_self]
  rw [if_pos e, hv]
  cases ho : o.mustStop with
  | relaxed => simp [TView.fence, TView.load, View.bump]
  | sync => simp [TView.fence, TView.fenceAcquire, TView.load, View.bump, View.join, hs ho]

/-- **C81 (orderings).** All three are needed: if the store of `stop()` were not `Release`, or if `must_stop()` had no `Acquire`
fence, or if `stop_all()` had no `Release` fence, a worker which has been told to stop could still read what was there before
the main thread wrote something and then asked it to stop. -/
theorem c81_orderings (o : Orders) (ho : o ≠ code) : ∃ (a : Act 1) (bs : List (Act 1)) (s : SSt 1),
    (a = .stop 0 ∨ a = .stopAll) ∧
    Run o 64 (sinit 64 1) ([.write 0 5] ++ a :: bs ++ .mustStop 0 true :: [] ++ [.read 0 0 0]) s := by
  obtain ⟨os, oa, om⟩ := o
  have h1 := Run.snoc _ _ _ _ _ (.nil (o := ⟨os, oa, om⟩) (W := 64) (sinit 64 1)) (.write _ 0 5)
  by_cases hcase : os = .relaxed ∨ om = .relaxed
  · have h2 := Run.snoc _ _ _ _ _ h1 (.stop _ 0 1 _ rfl (Load.mk 0 ⟨1, fun _ => 0⟩ rfl (by decide)) (by decide))
    obtain ⟨s', hs'⟩ := stale h2 1 ⟨0, (TView.publish os ⟨View.bump (View.bump (fun _ => 0) (.data 0) 1) (.word 0) 0,
      (View.bump (View.bump (fun _ => 0) (.data 0) 1) (.word 0) 0).join (fun _ => 0), fun _ => 0⟩).bump (.word 0) 1⟩ ⟨0, fun _ => 0⟩
      rfl rfl rfl (fun e => by
        rcases hcase with rfl | rfl
        · rfl
        · cases e) rfl
    exact ⟨.stop 0, [], s', .inl rfl, hs'⟩
  · have hos : os = .sync := by cases os <;> simp at hcase ⊢
    have hom : om = .sync := by cases om <;> simp at hcase ⊢
    have hoa : oa = .relaxed := by
      cases oa
      · rfl
      · subst hos hom; exact absurd rfl ho
    subst hos hom hoa
    have h2 := Run.snoc _ _ _ _ _ h1 (.stopAll _ rfl)
    have h3 := Run.snoc _ _ _ _ _ h2 (.stopWord _ 0 rfl (by decide +kernel))
    obtain ⟨s', hs'⟩ := stale h3 1 ⟨0, View.bump (fun _ => 0) (.word 0) 1⟩ ⟨0, fun _ => 0⟩ rfl rfl rfl (fun e => rfl) rfl
    exact ⟨.stopAll, [.stopWord], s', .inr rfl, hs'⟩

/-- Non-vacuity: with the orderings of the code and 65 workers (two words), the main thread writes, stops worker 64, then all;
worker 64 is told to stop and reads what was written before, worker 3 has not noticed yet. -/
example : ∃ s : SSt 65, Run code 64 (sinit 64 65)
    [.write 0 5, .stop 64, .stopAll, .stopWord, .mustStop 64 true, .mustStop 3 false, .read 64 0 1] s := by
  have h1 := Run.snoc _ _ _ _ _ (.nil (o := code) (W := 64) (sinit 64 65)) (.write _ 0 5)
  have h2 := Run.snoc _ _ _ _ _ h1 (.stop _ 64 1 _ rfl (Load.mk 0 ⟨1, fun _ => 0⟩ rfl (by decide)) (by decide))
  have h3 := Run.snoc _ _ _ _ _ h2 (.stopAll _ rfl)
  have h4 := Run.snoc _ _ _ _ _ h3 (.stopWord _ 0 rfl (by decide +kernel))
  have h5 := Run.snoc _ _ _ _ _ h4 (.mustStop _ 64 0 _ (Load.mk 1 ⟨0, View.bump (View.bump (View.bump (fun _ => 0) (.data 0) 1)
    (.word 1) 0) (.word 1) 1⟩ rfl (by decide)))
  have h6 := Run.snoc _ _ _ _ _ h5 (.mustStop _ 3 (2 ^ 64 - 1) _ (Load.mk 0 ⟨2 ^ 64 - 1, fun _ => 0⟩ rfl (by decide)))
  have h7 := Run.snoc _ _ _ _ _ h6 (.read _ 64 0 1 ⟨5, View.bump (fun _ => 0) (.data 0) 1⟩ rfl (by decide))
  exact ⟨_, h7⟩

end Verif.Measure.WeakStop
