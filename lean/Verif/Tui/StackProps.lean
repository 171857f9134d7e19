/-
C42, C59-C62: properties of the layer stack, see `Verif.Tui.Stack`.
-/
import Verif.Tui.StackInv

set_option autoImplicit false
set_option linter.unusedVariables false
set_option linter.unusedSimpArgs false

namespace Verif.Tui.Stack

variable {E : Env} {OK : E.Trace → Prop}

/-! ## Reading the invariant by layer index -/

theorem forall₂_get {α β : Type} {R : α → β → Prop} {l : List α} {m : List β} (h : List.Forall₂ R l m) {i : Nat} {b : β}
    (hb : m[i]? = some b) : ∃ a, l[i]? = some a ∧ R a b := by
  induction h generalizing i with
  | nil => simp at hb
  | @cons x y l m h1 _ ih =>
    cases i with
    | zero => simp at hb; subst hb; exact ⟨x, rfl, h1⟩
    | succ i => simp at hb ⊢; exact ih hb

theorem id_get {ps : List (Prof E)} (h : ps.map (·.id) = List.range ps.length) {i : Nat} {p : Prof E} (hp : ps[i]? = some p) :
    p.id = i := by
  have h1 : (ps.map (·.id))[i]? = some p.id := by rw [List.getElem?_map, hp]; rfl
  rw [h] at h1
  obtain ⟨hlt, h2⟩ := List.getElem?_eq_some_iff.1 h1
  simp at h2; exact h2.symm

/-- Where the views of the profiles are. -/
theorem Profiling.at {s : UI E} {base : List (Layer E)} {views : List (View E)} {ov : List (Layer E)} {t : E.Trace}
    {d : Disp E} {g : E.Norm} (h : Profiling OK s base views ov t d g) {i : Nat} {p : Prof E} (hp : s.stack[i]? = some p) :
    ∃ v, s.screen[s.below + i]? = some (.profile v) ∧ ViewOk t d v p ∧ p.id = i := by
  obtain ⟨v, hv, hvp⟩ := forall₂_get h.views hp
  refine ⟨v, ?_, hvp, id_get h.ids hp⟩
  have hlt : i < views.length := (List.getElem?_eq_some_iff.1 hv).1
  rw [h.screen, List.append_assoc, List.getElem?_append_right (by rw [h.len]; omega), h.len]
  rw [List.getElem?_append_left (by rw [List.length_map]; omega), List.getElem?_map]
  simp [hv]

theorem over_no_profile {s : UI E} {v : View E} : ¬ OverL s (.profile v) := id

/-- Conversely, views only are there. -/
theorem Profiling.only {s : UI E} {base : List (Layer E)} {views : List (View E)} {ov : List (Layer E)} {t : E.Trace}
    {d : Disp E} {g : E.Norm} (h : Profiling OK s base views ov t d g) {j : Nat} {v : View E} (hj : s.screen[j]? = some (.profile v)) :
    ∃ i p, j = s.below + i ∧ s.stack[i]? = some p ∧ ViewOk t d v p := by
  rw [h.screen, List.append_assoc] at hj
  by_cases h1 : j < base.length
  · rw [List.getElem?_append_left h1] at hj
    exact absurd (h.base _ (List.mem_of_getElem? hj)) id
  · rw [List.getElem?_append_right (by omega)] at hj
    by_cases h2 : j - base.length < (views.map Layer.profile).length
    · rw [List.getElem?_append_left h2] at hj
      rw [List.length_map] at h2
      have hlen := h.views.length_eq
      refine ⟨j - base.length, s.stack[j - base.length]'(by omega), by rw [← h.len]; omega, by simp, ?_⟩
      obtain ⟨v', hv', hvp⟩ := forall₂_get h.views (i := j - base.length) (b := s.stack[j - base.length]'(by omega)) (by simp)
      rw [List.getElem?_map, hv'] at hj
      simp at hj
      subst hj; exact hvp
    · rw [List.getElem?_append_right (by omega)] at hj
      exact absurd (h.ov _ (List.mem_of_getElem? hj)) id

theorem Busy.no_profile {s : UI E} {base : List (Layer E)} {b : Layer E} {ov : List (Layer E)} (h : Busy s base b ov) (v : View E) :
    Layer.profile v ∉ s.screen := by
  intro hm
  rw [h.screen] at hm
  rcases List.mem_append.1 hm with hm | hm
  · exact absurd (h.base _ hm) id
  · rcases List.mem_cons.1 hm with hm | hm
    · rcases h.what with ⟨id, rfl, _⟩ | ⟨rfl, _⟩ <;> cases hm
    · exact absurd (h.ov _ hm) id

theorem Idle.no_profile {s : UI E} (h : Idle s) (v : View E) : Layer.profile v ∉ s.screen :=
  fun hm => absurd (h.screen _ hm) id

/-! ## C42 -/

/-- **C42.** Whatever the user did and whatever was loaded or measured, the registered profiles are
displayed one above the other from layer `below` on, in order, by a table that bears their number and is of their kind;
no other layer displays a profile; only the last profile may be flat. -/
theorem c42_in_sync {s : UI E} (h : Reach true OK s) :
    (∀ i p, s.stack[i]? = some p → ∃ v, s.screen[s.below + i]? = some (.profile v) ∧ v.id = i ∧ p.id = i ∧ v.kind = p.kind) ∧
    (∀ j v, s.screen[j]? = some (.profile v) → s.below ≤ j ∧ j - s.below < s.stack.length) ∧
    (∀ i p, s.stack[i]? = some p → p.kind = .flat → i + 1 = s.stack.length) := by
  have hinv := inv_reach h
  rcases hinv.phase with hi | ⟨base, views, ov, t, d, g, hp⟩ | ⟨base, b, ov, hb⟩
  · refine ⟨by simp [hi.stack], ?_, by simp [hi.stack]⟩
    intro j v hj
    exact absurd (List.mem_of_getElem? hj) (hi.no_profile v)
  · refine ⟨?_, ?_, ?_⟩
    · intro i p hip
      obtain ⟨v, h1, h2, h3⟩ := hp.at hip
      exact ⟨v, h1, by rw [h2.id, h3], h3, h2.kind⟩
    · intro j v hj
      obtain ⟨i, p, rfl, h2, _⟩ := hp.only hj
      have := (List.getElem?_eq_some_iff.1 h2).1
      omega
    · intro i p hip hk
      by_contra hne
      have hlt := (List.getElem?_eq_some_iff.1 hip).1
      have hmem : p ∈ s.stack.dropLast := by
        refine List.mem_of_getElem? (i := i) ?_
        rw [List.getElem?_dropLast, if_pos (by omega)]; exact hip
      rw [hp.flat p hmem] at hk; cases hk
  · refine ⟨by simp [hb.stack], ?_, by simp [hb.stack]⟩
    intro j v hj
    exact absurd (List.mem_of_getElem? hj) (hb.no_profile v)

theorem showProfile_total {s : UI E} {parent : Option E.Act} {norm : E.Norm} {items : List E.Act} {other : Other E} {kind : Kind}
    (hd : s.nextDisp.isSome = true) (hi : items ≠ []) : showProfile parent norm items other kind s ≠ none := by
  unfold showProfile
  obtain ⟨d, hd⟩ := Option.isSome_iff_exists.1 hd
  rw [hd]
  have : items.isEmpty = false := by simpa using hi
  simp [this]

/-- **C42 (no panic).** If all loaded traces have activities, and non-zero durations that percentages
are relative to, then no user action and no completion of a load ever panics: all profiles that are looked up exist,
the processing thread is only asked about a trace that it has. -/
theorem c42_no_panic {s : UI E} (hOK : ∀ t, OK t → Displayable t) (h : Reach true OK s) :
    (∀ a, perform a s ≠ some none) ∧
    (∀ id r, id ∈ s.loads.map Prod.fst → (∀ t, r = some t → OK t) → loadDone id r s ≠ none) := by
  have hinv := inv_reach h
  constructor
  · intro a ha
    cases a with
    | unitKey =>
      simp only [perform, Option.some.injEq] at ha
      by_cases hst : s.stack = []
      · simp [switchUnit, hst] at ha
      · rcases hinv.phase with hi | ⟨base, views, ov, t, d, g, hp⟩ | ⟨base, b, ov, hb⟩
        · exact hst hi.stack
        · obtain ⟨d', _, he⟩ := switchUnit_run hp
          rw [he] at ha; cases ha
        · exact hst hb.stack
    | toggle =>
      unfold perform at ha
      split at ha <;> simp_all
      rename_i v htop
      obtain ⟨base, vs, ps, p, t, d, g, hp, hs, hf, hv, hscr⟩ := top_profile hinv htop
      unfold toggle at ha
      rw [hs, List.getLast?_concat, Other.get_ok hp.thread hv] at ha
      simp only [Option.bind_eq_bind, Option.bind_some] at ha
      refine absurd ha (showProfile_total ?_ ?_)
      · simp [UI.nextDisp, popLayer, hp.disp]
      · have hD := hOK t hp.ok
        cases hpar : p.parent with
        | none => cases v.kind <;> simp only [content, Kind.other] <;> first | exact hD.roots | exact hD.all
        | some a =>
          have hk := hv.kids a hpar
          cases v.kind <;> simp only [content, Kind.other] <;> first | exact hD.children a hk | exact hk
    | zoom row =>
      unfold perform at ha
      split at ha <;> simp_all
      rename_i v htop
      split at ha
      · rename_i a hk hrow
        simp only [Option.some.injEq] at ha
        obtain ⟨base, vs, ps, p, t, d, g, hp, hs, hf, hv, hscr⟩ := top_profile hinv htop
        unfold zoom at ha
        rw [hp.thread] at ha
        simp only [Option.bind_eq_bind, Option.bind_some] at ha
        split_ifs at ha with hc
        have hne : E.direct t a ≠ [] := by simpa using hc
        obtain ⟨n, hn⟩ := Option.isSome_iff_exists.1 ((hOK t hp.ok).norm a hne)
        rw [hn] at ha
        exact absurd ha (showProfile_total (by simp [UI.nextDisp, hp.disp]) hne)
      · cases ha
    | sort =>
      unfold perform at ha
      split at ha <;> simp_all
      rename_i v htop
      obtain ⟨base, vs, ps, p, t, d, g, hp, hs, hf, hv, hscr⟩ := top_profile hinv htop
      unfold sort at ha
      have h1 : s.stack.isEmpty = false := by simpa using hp.stack_ne
      have h2 : (s.stack.dropLast.all fun p => s.screen.any (Layer.hasTable p.id)) = true := by
        rw [List.all_eq_true]
        intro q hq
        obtain ⟨i, hi⟩ := List.getElem?_of_mem ((List.dropLast_subset _) hq)
        obtain ⟨v', h3, h4, _⟩ := hp.at hi
        refine List.any_eq_true.2 ⟨_, List.mem_of_getElem? h3, ?_⟩
        simp [Layer.hasTable, h4.id]
      simp [h1, hp.disp, h2] at ha
    | jump idx =>
      unfold perform at ha
      split at ha <;> simp_all
    | _ =>
      unfold perform at ha
      split at ha <;> simp_all
  · intro id r hid hr hl
    obtain ⟨p, hf, hpm, hpid⟩ := find_load hinv hid
    unfold loadDone at hl
    rw [hf] at hl
    simp only [Option.any_some] at hl
    split_ifs at hl with hc
    cases r with
    | none => cases hl
    | some t =>
      obtain ⟨n, hn⟩ := Option.isSome_iff_exists.1 (hOK t (hr t rfl)).global
      simp only [hn, Option.bind_eq_bind, Option.bind_some] at hl
      exact absurd hl (showProfile_total (by simp [UI.nextDisp]) (hOK t (hr t rfl)).roots)

/-- **C42 (undisplayable traces).** A trace without activities panics as soon as it is loaded. -/
theorem c42_empty_trace_panics {s : UI E} {id : Nat} (hid : (id, false) ∈ s.loads) (hnd : (s.loads.map Prod.fst).Nodup) {t : E.Trace}
    (ht : E.roots t = []) : loadDone id (some t) s = none := by
  unfold loadDone
  have hf : ((s.loads.find? (·.1 = id)).any (·.2)) = false := by
    cases hf : s.loads.find? (·.1 = id) with
    | none => rfl
    | some p =>
      have hpm := List.mem_of_find?_eq_some hf
      have hpid : p.1 = id := by simpa using List.find?_some hf
      have : p = (id, false) := List.inj_on_of_nodup_map hnd hpm hid hpid
      rw [this]; rfl
  simp only [hf, Bool.false_eq_true, if_false]
  cases hn : E.globalNorm t with
  | none => rfl
  | some n =>
    simp only [Option.bind_eq_bind, Option.bind_some]
    simp [showProfile, UI.nextDisp, ht]

/-! ## C59: units -/

/-- What a profile should display its durations as, when the current unit is `d`: absolute durations,
percentages of the whole trace, or of the profiled activity. -/
def unitSpec (t : E.Trace) (d : Disp E) (parent : Option E.Act) : Disp E :=
  match d with
  | .time => .time
  | .global n => match E.globalNorm t with
    | some g => .global g
    | none => .global n
  | .parent _ => .parent (normOf t parent)

/-- **C59.** When traces are displayed, there is a current unit, and every profile on the screen displays its
durations in this unit, percentages being relative to the trace or to the activity that this very profile
is about. -/
theorem c59_units {s : UI E} (h : Reach true OK s) (hs : s.stack ≠ []) :
    ∃ t d, s.thread = some t ∧ s.disp = some d ∧ (E.globalNorm t).isSome = true ∧
      ∀ (i : Nat) p, s.stack[i]? = some p → (normOf t p.parent).isSome = true ∧
        ∃ v, s.screen[s.below + i]? = some (.profile v) ∧ v.disp = unitSpec t d p.parent := by
  have hinv := inv_reach h
  rcases hinv.phase with hi | ⟨base, views, ov, t, d, g, hp⟩ | ⟨base, b, ov, hb⟩
  · exact absurd hi.stack hs
  · refine ⟨t, d, hp.thread, hp.disp, by rw [hp.gnorm']; rfl, ?_⟩
    intro i p hip
    obtain ⟨v, h1, h2, h3⟩ := hp.at hip
    refine ⟨by rw [h2.norm]; rfl, v, h1, ?_⟩
    rw [h2.disp]
    cases d with
    | time => rfl
    | global n =>
      have := hp.dg n rfl
      subst this
      simp [unitSpec, hp.gnorm', Disp.withNorm]
    | parent n => simp [unitSpec, Disp.withNorm, h2.norm]
  · exact absurd hb.stack hs

/-- **C59 (cycle).** Three switches of unit bring back every duration on the screen as it was. -/
theorem c59_cycle {s : UI E} (h : Reach true OK s) :
    ∃ s1 s2 s3, switchUnit s = some s1 ∧ switchUnit s1 = some s2 ∧ switchUnit s2 = some s3 ∧
      s3.screen = s.screen ∧ s3.stack = s.stack ∧ (s.stack ≠ [] → s1.screen ≠ s.screen ∧ s2.screen ≠ s.screen) := by
  have hinv := inv_reach h
  by_cases hst : s.stack = []
  · have : switchUnit s = some s := by simp [switchUnit, hst]
    exact ⟨s, s, s, this, this, this, rfl, rfl, fun h => absurd hst h⟩
  · rcases hinv.phase with hi | ⟨base, views, ov, t, d, g, hp⟩ | ⟨base, b, ov, hb⟩
    · exact absurd hi.stack hst
    · obtain ⟨d1, e1, h1⟩ := switchUnit_run hp
      have hp1 := hp.switched e1
      obtain ⟨d2, e2, h2⟩ := switchUnit_run hp1
      have hp2 := hp1.switched e2
      obtain ⟨d3, e3, h3⟩ := switchUnit_run hp2
      have hp3 := hp2.switched e3
      have hdiff : ∀ (d' : Disp E) (vs' : List (View E)), List.Forall₂ (ViewOk t d') vs' s.stack →
          (∀ n : E.Norm, d'.withNorm n ≠ d.withNorm n) → base ++ vs'.map Layer.profile ++ ov ≠ s.screen := by
        intro d' vs' hf hne he
        rw [hp.screen] at he
        have he := List.append_cancel_left (List.append_cancel_right he)
        have hinj : Function.Injective (Layer.profile (E := E)) := fun a b hab => by cases hab; rfl
        have he := List.map_injective_iff.2 hinj he
        subst he
        cases hv : s.stack with
        | nil => exact hst hv
        | cons p ps =>
          have hf' := hp.views
          rw [hv] at hf hf'
          cases hf with
          | cons ha _ =>
            cases hf' with
            | cons hb _ => exact hne p.norm (by rw [← ha.disp, ← hb.disp])
      refine ⟨_, _, _, h1, h2, h3, ?_, rfl, fun _ => ⟨?_, ?_⟩⟩
      · rw [hp.screen]
        show base ++ _ ++ ov = _
        have hd : ∀ p : Prof E, d3.withNorm p.norm = d.withNorm p.norm := by
          intro p
          subst e3 e2 e1
          cases d with
          | time => rfl
          | global n => have hn := hp.dg n rfl; subst hn; rfl
          | parent n => rfl
        have hz : ∀ (vs : List (View E)) (ps : List (Prof E)), List.Forall₂ (ViewOk t d) vs ps →
            List.zipWith (redisp d3) (List.zipWith (redisp d2) (List.zipWith (redisp d1) vs ps) ps) ps = vs := by
          intro vs ps hf
          induction hf with
          | nil => rfl
          | cons hvp _ ih =>
            simp only [List.zipWith_cons_cons, ih, List.cons.injEq, and_true]
            unfold redisp
            simp only
            rw [hd, ← hvp.disp]
        rw [hz _ _ hp.views]
      · refine hdiff d1 _ hp1.views ?_
        intro n
        subst e1
        cases d <;> simp [Disp.withNorm]
      · refine hdiff d2 _ hp2.views ?_
        intro n
        subst e2 e1
        cases d <;> simp [Disp.withNorm]
    · exact absurd hb.stack hst

/-! ## C60: contents -/

/-- **C60.** Every profile on the screen lists the activities that it is about: the root activities of the loaded
trace or the direct children of an activity, in order, if hierarchical; all activities of the trace or all transitive
children if flat. -/
theorem c60_contents {s : UI E} (h : Reach true OK s) (hs : s.stack ≠ []) :
    ∃ t, s.thread = some t ∧ OK t ∧
      ∀ (i : Nat) p, s.stack[i]? = some p → ∃ v, s.screen[s.below + i]? = some (.profile v) ∧ v.items = content t p.parent p.kind := by
  have hinv := inv_reach h
  rcases hinv.phase with hi | ⟨base, views, ov, t, d, g, hp⟩ | ⟨base, b, ov, hb⟩
  · exact absurd hi.stack hs
  · refine ⟨t, hp.thread, hp.ok, ?_⟩
    intro i p hip
    obtain ⟨v, h1, h2, h3⟩ := hp.at hip
    exact ⟨v, h1, by rw [h2.items, h2.kind]⟩
  · exact absurd hb.stack hs

/-- **C60 (flat/hierarchical).** Switching the topmost profile between its forms replaces it by the other
form of the profile of the same activity, and changes nothing else. -/
theorem c60_toggle {s s' : UI E} (h : Reach true OK s) {v : View E} (htop : s.screen.getLast? = some (.profile v))
    (ht : perform .toggle s = some (some s')) :
    ∃ t p v', s.thread = some t ∧ s.stack.getLast? = some p ∧
      s'.screen = s.screen.dropLast ++ [.profile v'] ∧ s'.stack = s.stack.dropLast ++ [⟨p.parent, p.id, p.norm, v'.kind⟩] ∧
      v'.id = v.id ∧ v'.kind ≠ v.kind ∧ v'.disp = v.disp ∧ v'.items = content t p.parent v'.kind := by
  have hinv := inv_reach h
  obtain ⟨base, vs, ps, p, t, d, g, hp, hs, hf, hv, hscr⟩ := top_profile hinv htop
  simp only [perform, htop, Option.some.injEq] at ht
  unfold toggle at ht
  rw [hs, List.getLast?_concat, Other.get_ok hp.thread hv] at ht
  simp only [Option.bind_eq_bind, Option.bind_some, List.dropLast_concat] at ht
  unfold showProfile at ht
  simp only [UI.nextDisp, popLayer, hp.disp, Option.bind_eq_bind, Option.bind_some] at ht
  have hid := (ids_snoc (by rw [← hs]; exact hp.ids)).2
  split_ifs at ht
  cases ht
  refine ⟨t, p, ⟨ps.length, v.kind.other, d.withNorm p.norm, content t p.parent v.kind.other, .stored v.items⟩, hp.thread, by rw [hs]; simp,
    ?_, ?_, ?_, ?_, ?_, ?_⟩
  · simp [addLayer]
  · rw [hs]; simp [addLayer, hid]
  · rw [hv.id, hid]
  · cases v.kind <;> simp [Kind.other]
  · rw [hv.disp]
  · rfl

/-- **C60 (twice).** Doing it twice gives back the same screen, but for the origin of the other list. -/
theorem c60_toggle_twice {s s1 s2 : UI E} (h : Reach true OK s) (hq : s.quit = false) (hqu : Quiet s) {v : View E}
    (htop : s.screen.getLast? = some (.profile v))
    (h1 : perform .toggle s = some (some s1)) (h2 : perform .toggle s1 = some (some s2)) :
    s2.stack = s.stack ∧ s2.screen.dropLast = s.screen.dropLast ∧
      ∃ v2, s2.screen.getLast? = some (.profile v2) ∧ v2.id = v.id ∧ v2.kind = v.kind ∧ v2.disp = v.disp ∧ v2.items = v.items := by
  obtain ⟨t, p, v1, ht, hp, hscr, hst, hid, hk, hd, hit⟩ := c60_toggle h htop h1
  have hr1 := Reach.step h (.user _ _ _ hq (fun _ => hqu) h1)
  obtain ⟨t', p', v2, ht', hp', hscr', hst', hid', hk', hd', hit'⟩ := c60_toggle hr1 (v := v1) (by rw [hscr]; simp) h2
  have hkk : v2.kind = v.kind := by
    revert hk hk'
    cases v2.kind <;> cases v1.kind <;> cases v.kind <;> simp
  rw [hst] at hp'
  simp at hp'
  obtain ⟨base, vs, ps, q, t0, d, g, hpr, hs, hf, hv, hsc⟩ := top_profile (inv_reach h) htop
  have hpq : p = q := by rw [hs] at hp; simpa using hp.symm
  have htt : t' = t := by
    have hthr : s1.thread = s.thread := by
      simp only [perform, htop, Option.some.injEq] at h1
      unfold toggle at h1
      rw [hs, List.getLast?_concat, Other.get_ok hpr.thread hv] at h1
      simp only [Option.bind_eq_bind, Option.bind_some, List.dropLast_concat] at h1
      unfold showProfile at h1
      simp only [UI.nextDisp, popLayer, hpr.disp, Option.bind_eq_bind, Option.bind_some] at h1
      split_ifs at h1
      cases h1
      rfl
    rw [hthr, ht] at ht'; simpa using ht'.symm
  have htt0 : t0 = t := by rw [hpr.thread] at ht; simpa using ht
  subst htt htt0
  refine ⟨?_, ?_, v2, ?_, ?_, ?_, ?_, ?_⟩
  · rw [hst', hst, ← hp', hkk, hv.kind, ← hpq, hs]
    simp [← hpq]
  · rw [hscr', hscr]; simp
  · rw [hscr']; simp
  · rw [hid', hid]
  · exact hkk
  · rw [hd', hd]
  · rw [hit', ← hp', hv.items, hkk, hpq]

/-- **C60 (zoom).** Return on a row of a hierarchical profile opens the profile of its direct children, above everything that
was there; nothing happens if there are none. -/
theorem c60_zoom {s s' : UI E} (h : Reach true OK s) {v : View E} (htop : s.screen.getLast? = some (.profile v)) {row : Nat}
    (hz : perform (.zoom row) s = some (some s')) :
    ∃ t a, s.thread = some t ∧ v.items[row]? = some a ∧ v.kind = .hier ∧
      (E.direct t a = [] → s' = s) ∧
      (E.direct t a ≠ [] → ∃ v' n, s'.screen = s.screen ++ [.profile v'] ∧ s'.stack = s.stack ++ [⟨some a, s.stack.length, n, .hier⟩] ∧
        E.norm t a = some n ∧ v'.id = s.stack.length ∧ v'.kind = .hier ∧ v'.items = E.direct t a ∧
        ∃ d, s'.disp = some d ∧ v'.disp = unitSpec t d (some a)) := by
  have hinv := inv_reach h
  obtain ⟨base, vs, ps, p, t, d, g, hp, hs, hf, hv, hscr⟩ := top_profile hinv htop
  simp only [perform, htop] at hz
  split at hz
  · rename_i a hk hrow
    refine ⟨t, a, hp.thread, hrow, hk, ?_, ?_⟩ <;> intro hd <;>
      simp only [Option.some.injEq, zoom, hp.thread, Option.bind_eq_bind, Option.bind_some] at hz
    · simp [hd] at hz; exact hz.symm
    · rw [if_neg (by simpa using hd)] at hz
      cases hn : E.norm t a with
      | none => simp [hn] at hz
      | some n =>
        simp only [hn, Option.bind_some, showProfile, UI.nextDisp, hp.disp, Option.bind_eq_bind] at hz
        rw [if_neg (by simpa using hd)] at hz
        cases hz
        refine ⟨⟨s.stack.length, .hier, d.withNorm n, E.direct t a, .fetch (some a)⟩, n, rfl, rfl, rfl, rfl, rfl, rfl, d.withNorm n, rfl, ?_⟩
        cases d with
        | time => rfl
        | global m =>
          have := hp.dg m rfl
          subst this
          simp [Disp.withNorm, unitSpec, hp.gnorm']
        | parent m => simp [Disp.withNorm, unitSpec, normOf, hn]
  · cases hz

/-! ## A second invariant: the bottom layer and the chain of profiled activities -/

/-- The first profile is about the whole trace, every other one about a row of the hierarchical profile below it. -/
def Chain (t : E.Trace) (ps : List (Option E.Act)) : Prop :=
  (∀ x, ps[0]? = some x → x = none) ∧
  ∀ (i : Nat) x y, ps[i]? = some x → ps[i + 1]? = some y → ∃ a, y = some a ∧ a ∈ content t x .hier

theorem Chain.nil (t : E.Trace) : Chain t [] := ⟨by simp, by simp⟩

theorem Chain.take {t : E.Trace} {ps : List (Option E.Act)} (h : Chain t ps) (n : Nat) : Chain t (ps.take n) := by
  constructor
  · intro x hx
    refine h.1 x ?_
    rw [List.getElem?_take] at hx
    split_ifs at hx; exact hx
  · intro i x y hx hy
    rw [List.getElem?_take] at hx hy
    split_ifs at hx hy
    exact h.2 i x y hx hy

theorem Chain.dropLast {t : E.Trace} {ps : List (Option E.Act)} (h : Chain t ps) : Chain t ps.dropLast := by
  rw [List.dropLast_eq_take]; exact h.take _

theorem Chain.snoc {t : E.Trace} {ps : List (Option E.Act)} {x : Option E.Act} {a : E.Act} (h : Chain t (ps ++ [x]))
    (ha : a ∈ content t x .hier) : Chain t (ps ++ [x] ++ [some a]) := by
  constructor
  · intro y hy
    rw [List.getElem?_append_left (by simp)] at hy
    exact h.1 y hy
  · intro i y z hy hz
    have hlt := (List.getElem?_eq_some_iff.1 hz).1
    simp only [List.length_append, List.length_cons, List.length_nil] at hlt
    rw [List.getElem?_append_left (by simp; omega)] at hy
    by_cases hi : i + 1 < (ps ++ [x]).length
    · rw [List.getElem?_append_left hi] at hz
      exact h.2 i y z hy hz
    · simp only [List.length_append, List.length_cons, List.length_nil] at hi
      have : i = ps.length := by omega
      subst this
      rw [List.getElem?_append_right (by simp)] at hz
      simp at hz hy
      subst hz hy
      exact ⟨a, rfl, ha⟩

/-- The second invariant. -/
structure Inv2 (s : UI E) : Prop where
  root : s.fullBuild = true → s.screen.head? = some .build
  below : s.fullBuild = true → (s.noEscape = true ∨ s.stack ≠ []) → 1 ≤ s.below
  chain : ∀ t, s.thread = some t → Chain t (s.stack.map (·.parent))

theorem head_dropLast {α : Type} {l : List α} (h : 1 < l.length) : l.dropLast.head? = l.head? := by
  match l, h with
  | a :: b :: l, _ => rfl

theorem head_take {α : Type} {l : List α} {n : Nat} (h : 1 ≤ n) : (l.take n).head? = l.head? := by
  match l, n, h with
  | [], n, _ => simp
  | a :: l, n + 1, _ => rfl

theorem head_append {α : Type} {l m : List α} {x : α} (h : l.head? = some x) : (l ++ m).head? = some x := by
  match l, h with
  | a :: l, h => simpa using h

theorem Inv2.add {s : UI E} (h : Inv2 s) (l : Layer E) : Inv2 (addLayer l s) :=
  { h with root := fun hf => head_append (h.root hf) }

theorem Inv2.pop {s : UI E} (h : Inv2 s) {l : Layer E} (hl : s.screen.getLast? = some l) (hb : l ≠ .build) : Inv2 (popLayer s) :=
  { h with
    root := fun hf => by
      have hr := h.root hf
      show s.screen.dropLast.head? = _
      by_cases hlen : 1 < s.screen.length
      · rw [head_dropLast hlen]; exact hr
      · exfalso
        cases hs : s.screen with
        | nil => rw [hs] at hr; cases hr
        | cons a r =>
          rw [hs] at hr hl hlen
          simp at hr hlen
          subst hr hlen
          simp at hl
          exact hb hl.symm }

theorem Inv2.showLoader {s : UI E} (h : Inv2 s) : Inv2 (showLoader s) :=
  { root := fun hf => head_append (h.root hf)
    below := fun hf _ => by
      have hr := h.root hf
      show 1 ≤ s.screen.length
      cases hs : s.screen with
      | nil => rw [hs] at hr; cases hr
      | cons a r => simp
    chain := h.chain }

theorem Inv2.startMeasure {s : UI E} (h : Inv2 s) (r : Start) : Inv2 (startMeasure r s) := by
  cases r with
  | error two =>
    unfold Stack.startMeasure
    simp only
    split_ifs
    · exact (h.add _).add _
    · exact h.add _
  | started o =>
    exact {
      root := fun hf => head_append (h.root hf)
      below := fun hf _ => by
        have hr := h.root hf
        show 1 ≤ s.screen.length
        cases hs : s.screen with
        | nil => rw [hs] at hr; cases hr
        | cons a r => simp
      chain := h.chain }

theorem Inv2.escape {s : UI E} (hi : Inv OK s) (h : Inv2 s) : Inv2 (escape s) := by
  unfold Stack.escape
  split_ifs with h1 h2 h3
  · exact h
  · exact {
      root := fun hf => by show s.screen.dropLast.head? = _; rw [head_dropLast h1]; exact h.root hf
      below := fun hf hc => h.below hf (by
        rcases hc with hc | hc
        · exact Or.inl hc
        · refine Or.inr fun he => hc ?_
          show s.stack.dropLast = []
          rw [he]; rfl)
      chain := fun t ht => by
        show Chain t (s.stack.dropLast.map _)
        rw [List.map_dropLast]; exact (h.chain t ht).dropLast }
  · exact { h with root := fun hf => by show s.screen.dropLast.head? = _; rw [head_dropLast h1]; exact h.root hf }
  · exact h

theorem Inv2.global {s : UI E} (h : Inv2 s) (g : Option Global) : Inv2 (globalDialog g s) := by
  unfold globalDialog
  split_ifs
  · exact h
  · cases g with
    | none => exact h
    | some g => exact h.add _

theorem Inv2.unit {s s' : UI E} (hi : Inv OK s) (h : Inv2 s) (hu : switchUnit s = some s') : Inv2 s' := by
  by_cases hst : s.stack = []
  · unfold switchUnit at hu
    simp only [hst, List.isEmpty_nil, if_true, Option.some.injEq] at hu
    subst hu; exact h
  rcases hi.phase with hd | ⟨base, views, ov, t, d, g, hp⟩ | ⟨base, b, ov, hb⟩
  · exact absurd hd.stack hst
  · obtain ⟨d', hd', he⟩ := switchUnit_run hp
    rw [he] at hu
    cases hu
    refine { h with root := fun hf => ?_ }
    have hr := h.root hf
    have hb := h.below hf (Or.inr hst)
    rw [hp.screen] at hr
    show (base ++ _ ++ ov).head? = _
    rw [List.append_assoc]
    cases hbase : base with
    | nil => have := hp.len; rw [hbase] at this; simp at this; omega
    | cons a r => rw [hbase] at hr; simpa using hr
  · exact absurd hb.stack hst

theorem Inv2.jump {s : UI E} (hi : Inv OK s) (h : Inv2 s) {below n idx : Nat}
    (htop : s.screen.getLast? = some (.global (.backtrace below n))) : Inv2 (jump below idx s) := by
  unfold Stack.jump
  exact {
    root := fun hf => by
      show (s.screen.take _).head? = _
      rw [head_take (by omega)]; exact h.root hf
    below := fun hf hc => h.below hf (by
        rcases hc with hc | hc
        · exact Or.inl hc
        · refine Or.inr fun he => hc ?_
          show s.stack.take _ = []
          rw [he]; simp)
    chain := fun t ht => by
      show Chain t ((s.stack.take _).map _)
      rw [List.map_take]; exact (h.chain t ht).take _ }

theorem showProfile_eq {s s' : UI E} {parent : Option E.Act} {norm : E.Norm} {items : List E.Act} {other : Other E} {kind : Kind}
    (h : showProfile parent norm items other kind s = some s') :
    ∃ d v, s' = addLayer (.profile v) { s with disp := some d, stack := s.stack ++ [⟨parent, s.stack.length, norm, kind⟩] } := by
  unfold showProfile at h
  cases hd : s.nextDisp with
  | none => simp [hd] at h
  | some d =>
    simp only [hd, Option.bind_eq_bind, Option.bind_some] at h
    split_ifs at h
    cases h
    exact ⟨_, _, rfl⟩

theorem Inv2.toggle {s s' : UI E} (hi : Inv OK s) (h : Inv2 s) {v : View E} (htop : s.screen.getLast? = some (.profile v))
    (ht : toggle v s = some s') : Inv2 s' := by
  obtain ⟨base, vs, ps, p, t, d, g, hp, hs, hf, hv, hscr⟩ := top_profile hi htop
  unfold Stack.toggle at ht
  rw [hs, List.getLast?_concat, Other.get_ok hp.thread hv] at ht
  simp only [Option.bind_eq_bind, Option.bind_some, List.dropLast_concat] at ht
  obtain ⟨d', v', rfl⟩ := showProfile_eq ht
  have hpop := h.pop htop (by simp)
  exact {
    root := fun hf => head_append (hpop.root hf)
    below := fun hf _ => h.below hf (Or.inr hp.stack_ne)
    chain := fun t ht => by
      have := h.chain t ht
      rw [hs] at this
      simpa [addLayer, popLayer] using this }

theorem Inv2.zoom {s s' : UI E} (hi : Inv OK s) (h : Inv2 s) {v : View E} (htop : s.screen.getLast? = some (.profile v)) {a : E.Act}
    (hk : v.kind = .hier) (ha : a ∈ v.items) (hz : zoom a s = some s') : Inv2 s' := by
  obtain ⟨base, vs, ps, p, t, d, g, hp, hs, hf, hv, hscr⟩ := top_profile hi htop
  unfold Stack.zoom at hz
  rw [hp.thread] at hz
  simp only [Option.bind_eq_bind, Option.bind_some] at hz
  split_ifs at hz with hc
  · cases hz; exact h
  · cases hn : E.norm t a with
    | none => simp [hn] at hz
    | some n =>
      simp only [hn, Option.bind_some] at hz
      obtain ⟨d', v', rfl⟩ := showProfile_eq hz
      exact {
        root := fun hf => head_append (h.root hf)
        below := fun hf _ => h.below hf (Or.inr hp.stack_ne)
        chain := fun t' ht' => by
          have htt : t' = t := by
            have : some t' = some t := by rw [← hp.thread]; exact ht'.symm
            simpa using this
          subst htt
          have hch := h.chain t' hp.thread
          show Chain t' ((s.stack ++ [_]).map _)
          rw [hs] at hch ⊢
          simp only [List.map_append, List.map_cons, List.map_nil] at hch ⊢
          refine hch.snoc ?_
          rw [hv.items, hk] at ha
          exact ha }

theorem Inv2.endWait {s : UI E} (h : Inv2 s) (hw : s.noEscape = true) (hs : s.stack = []) : Inv2 (endWait s) :=
  { root := fun hf => by
      show (s.screen.take s.below).head? = _
      rw [head_take (h.below hf (Or.inl hw))]; exact h.root hf
    below := fun hf hc => h.below hf (Or.inl hw)
    chain := h.chain }

theorem Inv2.abortLoad {s : UI E} (hi : Inv OK s) (h : Inv2 s) {id : Nat} (htop : s.screen.getLast? = some (.loader id)) :
    Inv2 (abortLoad id s) := by
  obtain ⟨base, ov, hb⟩ : ∃ base ov, Busy s base (.loader id) ov := by
    rcases hi.phase with hd | ⟨base, views, ov, t, d, g, hp⟩ | ⟨base, b, ov, hb⟩
    · exact absurd (hd.screen _ (List.mem_of_getLast? htop)) fun h => h
    · rcases hp.top with ⟨rfl, vs, v', ps, p, rfl, hs, hf, hv, hscr⟩ | ⟨ov', x, rfl, hx, _, hscr⟩
      · rw [hscr] at htop; simp at htop
      · rw [hscr] at htop; simp at htop; subst htop; exact absurd hx fun h => h
    · have hmem := List.mem_of_getLast? htop
      rw [hb.screen] at hmem
      rcases List.mem_append.1 hmem with hm | hm
      · exact absurd (hb.base _ hm) fun h => h
      · rcases List.mem_cons.1 hm with hm | hm
        · subst hm; exact ⟨base, ov, hb⟩
        · exact absurd (hb.ov _ hm) fun h => h
  have h1 : Inv2 { s with loads := s.loads.map fun p => if p.1 = id then (p.1, true) else p } := { h with }
  have h2 := h1.endWait hb.esc hb.stack
  unfold Stack.abortLoad
  simp only
  split_ifs
  · exact { h2 with }
  · exact { h2 with chain := by intro t ht; cases ht }

theorem load_busy {s : UI E} (hi : Inv OK s) {id : Nat} (hl : (id, false) ∈ s.loads) : s.noEscape = true ∧ s.stack = [] := by
  rcases hi.phase with hd | ⟨base, views, ov, t, d, g, hp⟩ | ⟨base, b, ov, hb⟩
  · cases hd.loads _ hl
  · cases hp.loads _ hl
  · exact ⟨hb.esc, hb.stack⟩

theorem Inv2.loadDone {s s' : UI E} (hi : Inv OK s) (h : Inv2 s) {id : Nat} {r : Option E.Trace} (hid : id ∈ s.loads.map Prod.fst)
    (hl : loadDone id r s = some s') : Inv2 s' := by
  obtain ⟨p, hf, hpm, hpid⟩ := find_load hi hid
  unfold Stack.loadDone at hl
  rw [hf] at hl
  simp only [Option.any_some] at hl
  split_ifs at hl with hc
  · cases hl; exact { h with }
  · have hp2 : p = (id, false) := by
      obtain ⟨a, b⟩ := p
      simp at hpid hc; subst hpid; subst hc; rfl
    obtain ⟨hw, hs⟩ := load_busy hi (id := id) (by rw [← hp2]; exact hpm)
    have h1 : Inv2 { s with loads := s.loads.filter (·.1 ≠ id), thread := r } :=
      { h with
        chain := fun t _ => by
          show Chain t (s.stack.map _)
          rw [hs]; exact Chain.nil t }
    have h2 := h1.endWait hw hs
    cases r with
    | none => cases hl; exact h2.add _
    | some t =>
      cases hn : E.globalNorm t with
      | none => simp [hn] at hl
      | some n =>
        simp only [hn, Option.bind_eq_bind, Option.bind_some] at hl
        obtain ⟨d', v', rfl⟩ := showProfile_eq hl
        exact {
          root := fun hf => head_append (h2.root hf)
          below := fun hf _ => h.below hf (Or.inl hw)
          chain := fun t' _ => by
            show Chain t' ((s.stack ++ [_]).map _)
            rw [hs]
            exact ⟨by simp, by simp⟩ }

theorem endMeasure_busy {s : UI E} (hi : Inv OK s) {i : Nat} {rest : List Cb} (hth : s.threads[i]? = some (.endMeasure :: rest)) :
    s.noEscape = true ∧ s.stack = [] := by
  rcases hi.phase with hd | ⟨base, views, ov, t, d, g, hp⟩ | ⟨base, b, ov, hb⟩
  · rcases hd.threads with ht | ht
    · exact absurd (noneActive_at hth ht) (by decide)
    · have := (oneActive_at hth (by decide) ht).1
      cases this
  · exact absurd (noneActive_at hth hp.threads) (by decide)
  · exact ⟨hb.esc, hb.stack⟩

theorem Inv2.callback {s : UI E} (hi : Inv OK s) (h : Inv2 s) {i : Nat} {c : Cb} {rest : List Cb} (hth : s.threads[i]? = some (c :: rest)) :
    Inv2 (runCb c { s with threads := s.threads.set i rest }) := by
  have h1 : Inv2 { s with threads := s.threads.set i rest } := { h with }
  cases c with
  | endMeasure =>
    obtain ⟨hw, hs⟩ := endMeasure_busy hi hth
    exact h1.endWait hw hs
  | load => exact h1.showLoader
  | info => exact h1.add _

theorem Inv2.user {s s' : UI E} (hi : Inv OK s) (h : Inv2 s) {a : Action E} (hp : perform a s = some (some s')) : Inv2 s' := by
  cases a with
  | esc => cases hp; exact h.escape hi
  | quitKey => cases hp; exact h.global _
  | helpKey => cases hp; exact h.global _
  | backtraceKey => cases hp; exact h.global _
  | unitKey => exact h.unit hi (by simpa [perform] using hp)
  | dismiss =>
    unfold perform at hp
    split at hp <;> simp_all
    all_goals
      subst hp
      rename_i htop
      exact h.pop htop (by simp)
  | quitYes =>
    unfold perform at hp
    split at hp <;> simp_all
    subst hp
    exact { h with }
  | jump idx =>
    unfold perform at hp
    split at hp <;> simp_all
    obtain ⟨h1, rfl⟩ := hp
    rename_i htop
    exact h.jump hi htop
  | toggle =>
    unfold perform at hp
    split at hp <;> simp_all
    rename_i htop
    exact h.toggle hi htop hp
  | zoom row =>
    unfold perform at hp
    split at hp <;> simp_all
    rename_i v htop
    split at hp
    · rename_i a hk ha
      simp only [Option.some.injEq] at hp
      exact h.zoom hi htop hk (List.mem_of_getElem? ha) hp
    · cases hp
  | sort =>
    unfold perform at hp
    split at hp <;> simp_all
    rw [sort_same hp]; exact h
  | pick w =>
    unfold perform at hp
    split at hp <;> simp_all
    subst hp
    unfold pick
    split
    · exact h.add _
    · exact h.add _
    · exact h.showLoader
  | reply c r =>
    unfold perform at hp
    split at hp <;> simp_all
    rename_i htop
    subst hp
    have h1 := h.pop htop (by simp)
    unfold reply
    simp only
    split_ifs
    · exact h1.startMeasure _
    · exact h1.showLoader
    · exact h1
  | abortLoad =>
    unfold perform at hp
    split at hp <;> simp_all
    rename_i htop
    subst hp
    exact h.abortLoad hi htop
  | abortMeasure =>
    unfold perform at hp
    split at hp <;> simp_all

theorem inv2_reach {s : UI E} (h : Reach true OK s) : Inv2 s := by
  induction h with
  | init s h =>
    cases h with
    | trace => exact ⟨by simp [showLoader, addLayer, start], by simp [showLoader, addLayer, start], by simp [showLoader, addLayer, start]⟩
    | build => exact ⟨by simp [addLayer, start], by simp [addLayer, start], by simp [addLayer, start]⟩
  | step hr hs ih =>
    have hi := inv_reach hr
    cases hs with
    | user _ a hq h hp => exact ih.user hi hp
    | loaded _ id r hq h hid hr hl => exact ih.loadDone hi hid hl
    | callback i c rest hq hth => exact ih.callback hi hth

/-- **C60 (path).** The profiles form a path in the trace: the bottom one is about the whole trace, and every other one about an
activity that the profile right below it lists. -/
theorem c60_path {s : UI E} (h : Reach true OK s) {t : E.Trace} (ht : s.thread = some t) :
    (∀ p, s.stack[0]? = some p → p.parent = none) ∧
    ∀ (i : Nat) p q, s.stack[i]? = some p → s.stack[i + 1]? = some q →
      ∃ a v, q.parent = some a ∧ s.screen[s.below + i]? = some (.profile v) ∧ v.kind = .hier ∧ a ∈ v.items := by
  have hc := (inv2_reach h).chain t ht
  refine ⟨fun p hp => hc.1 _ (by rw [List.getElem?_map, hp]; rfl), ?_⟩
  intro i p q hp hq
  obtain ⟨a, ha, hm⟩ := hc.2 i p.parent q.parent (by rw [List.getElem?_map, hp]; rfl) (by rw [List.getElem?_map, hq]; rfl)
  have hst : s.stack ≠ [] := by rintro he; rw [he] at hp; cases hp
  rcases (inv_reach h).phase with hd | ⟨base, views, ov, t', d, g, hpr⟩ | ⟨base, b, ov, hb⟩
  · exact absurd hd.stack hst
  · obtain ⟨v, hv, hvo, _⟩ := hpr.at hp
    have htt : t' = t := by have := hpr.thread; rw [ht] at this; simpa using this.symm
    subst htt
    have hk : p.kind = .hier := by
      refine hpr.flat p ?_
      have hlt := (List.getElem?_eq_some_iff.1 hq).1
      refine List.mem_of_getElem? (i := i) ?_
      rw [List.getElem?_dropLast, if_pos (by omega)]; exact hp
    exact ⟨a, v, ha, hv, by rw [hvo.kind, hk], by rw [hvo.items, hvo.kind, hk]; exact hm⟩
  · exact absurd hb.stack hst

end Verif.Tui.Stack
