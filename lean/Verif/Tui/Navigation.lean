/-
C42, C61, C62: moving between layers, background events, defects; see `Verif.Tui.Stack`.
-/
import Verif.Tui.StackProps

set_option autoImplicit false
set_option linter.unusedVariables false
set_option linter.unusedSimpArgs false

namespace Verif.Tui.Stack

variable {E : Env} {OK : E.Trace → Prop}

/-- Screens that wait for a trace. -/
def Waiting : Layer E → Prop
  | .loader _ | .measuring => True
  | _ => False

/-! ## C61 -/

/-- **C61 (waiting).** Esc is disabled exactly while a waiting screen is there. -/
theorem c61_waiting {s : UI E} (h : Reach true OK s) :
    (s.noEscape = true ↔ ∃ l ∈ s.screen, Waiting l) ∧ ((∃ l ∈ s.screen, Waiting l) → perform .esc s = some (some s)) := by
  have key : s.noEscape = true ↔ ∃ l ∈ s.screen, Waiting l := by
    rcases (inv_reach h).phase with hd | ⟨base, views, ov, t, d, g, hp⟩ | ⟨base, b, ov, hb⟩
    · rw [hd.esc]
      refine ⟨fun h => (by cases h), ?_⟩
      rintro ⟨l, hl, hw⟩
      have := hd.screen l hl
      cases l <;> first | exact absurd hw fun h => h | exact absurd this fun h => h
    · rw [hp.esc]
      refine ⟨fun h => (by cases h), ?_⟩
      rintro ⟨l, hl, hw⟩
      rw [hp.screen] at hl
      rcases List.mem_append.1 hl with hl | hl
      · rcases List.mem_append.1 hl with hl | hl
        · have := hp.base l hl
          cases l <;> first | exact absurd hw fun h => h | exact absurd this fun h => h
        · obtain ⟨v, _, rfl⟩ := List.mem_map.1 hl
          exact absurd hw fun h => h
      · have := hp.ov l hl
        cases l <;> first | exact absurd hw fun h => h | exact absurd this fun h => h
    · rw [hb.esc]
      refine ⟨fun _ => ⟨b, by rw [hb.screen]; simp, ?_⟩, fun _ => rfl⟩
      rcases hb.what with ⟨id, rfl, _⟩ | ⟨rfl, _⟩ <;> trivial
  refine ⟨key, fun hw => ?_⟩
  have := key.2 hw
  simp only [perform, escape, this, if_true]
  split_ifs <;> rfl

/-- **C61 (Esc on a profile).** Esc closes the topmost profile, and only it, unless nothing is underneath. -/
theorem c61_esc_profile {s : UI E} (h : Reach true OK s) {v : View E} (htop : s.screen.getLast? = some (.profile v)) :
    (1 < s.screen.length → ∃ s', perform .esc s = some (some s') ∧
      s'.screen = s.screen.dropLast ∧ s'.stack = s.stack.dropLast ∧ s'.stack.length + 1 = s.stack.length) ∧
    (s.screen.length = 1 → perform .esc s = some (some s)) := by
  obtain ⟨base, vs, ps, p, t, d, g, hp, hs, hf, hv, hscr⟩ := top_profile (inv_reach h) htop
  have hlen : s.screen.length = s.stack.length + s.below := by
    have h1 := hf.length_eq
    have h2 := hp.len
    rw [hscr, hs]
    simp
    omega
  constructor
  · intro hl
    refine ⟨_, rfl, ?_⟩
    unfold escape
    rw [if_pos hl, hp.esc, if_neg (by simp), if_pos hlen]
    refine ⟨rfl, rfl, ?_⟩
    show s.stack.dropLast.length + 1 = _
    rw [hs]; simp
  · intro hl
    simp only [perform, escape, if_neg (show ¬ s.screen.length > 1 by omega)]

/-- **C61 (Esc on a dialog).** Esc on anything else closes it, and leaves profiles as they are. -/
theorem c61_esc_other {s : UI E} (h : Reach true OK s) (hw : ∀ l ∈ s.screen, ¬ Waiting l) (hl : 1 < s.screen.length)
    (htop : ∀ v, s.screen.getLast? ≠ some (.profile v)) :
    ∃ s', perform .esc s = some (some s') ∧ s'.screen = s.screen.dropLast ∧ s'.stack = s.stack := by
  have hne : s.noEscape = false := by
    cases hn : s.noEscape with
    | false => rfl
    | true =>
      obtain ⟨l, hl, hwl⟩ := (c61_waiting h).1.1 hn
      exact absurd hwl (hw l hl)
  refine ⟨_, rfl, ?_⟩
  unfold escape
  rw [if_pos hl, hne, if_neg (by simp)]
  rcases (inv_reach h).phase with hd | ⟨base, views, ov, t, d, g, hp⟩ | ⟨base, b, ov, hb⟩
  · split_ifs
    · refine ⟨rfl, ?_⟩
      show s.stack.dropLast = s.stack
      rw [hd.stack]; rfl
    · exact ⟨rfl, rfl⟩
  · rcases hp.top with ⟨rfl, vs, v', ps, p, rfl, hs, hf, hv, hscr⟩ | ⟨ov', x, rfl, hx, _, hscr⟩
    · exact absurd (by rw [hscr]; simp) (htop v')
    · have h1 := hp.views.length_eq
      have h2 := hp.len
      rw [if_neg]
      · exact ⟨rfl, rfl⟩
      · rw [hp.screen]; simp; omega
  · rw [hb.esc] at hne; cases hne

/-- **C61 (root).** In full-build mode, the full-build profile is never closed: it always lies at the bottom. -/
theorem c61_build_stays {s : UI E} (h : Reach true OK s) (hf : s.fullBuild = true) : s.screen.head? = some .build :=
  (inv2_reach h).root hf

/-- **C61 (backtrace).** Every entry of the backtrace goes back to the profile that it stands for, closing exactly the
profiles above it and the dialog. -/
theorem c61_jump {s : UI E} (h : Reach true OK s) {below n : Nat} (htop : s.screen.getLast? = some (.global (.backtrace below n))) :
    n = s.stack.length ∧ ∀ idx, idx < n → ∃ s' v p, perform (.jump idx) s = some (some s') ∧
      s'.stack = s.stack.take (idx + 1) ∧ s'.screen = s.screen.take (s.below + idx + 1) ∧
      s.stack[idx]? = some p ∧ s'.screen.getLast? = some (.profile v) ∧ v.id = idx ∧ v.kind = p.kind := by
  have hinv := inv_reach h
  have hmem := List.mem_of_getLast? htop
  rcases hinv.phase with hd | ⟨base, views, ov, t, d, g, hp⟩ | ⟨base, b, ov, hb⟩
  · exact absurd (hd.screen _ hmem) fun h => h
  · have hov : OverL s (.global (.backtrace below n)) := by
      rcases hp.top with ⟨rfl, vs, v', ps, p, rfl, hs, hf, hv, hscr⟩ | ⟨ov', x, rfl, hx, _, hscr⟩
      · rw [hscr] at htop; simp at htop
      · rw [hscr] at htop; simp at htop; subst htop; exact hx
    obtain ⟨rfl, rfl, _⟩ := hov
    refine ⟨rfl, fun idx hidx => ?_⟩
    obtain ⟨v, hv, hvo, hpid⟩ := hp.at (i := idx) (p := s.stack[idx]) (by simp)
    refine ⟨jump s.below idx s, v, s.stack[idx], by simp only [perform, htop, if_pos hidx], rfl, ?_, by simp, ?_, by rw [hvo.id, hpid], hvo.kind⟩
    · show s.screen.take (idx + 1 + s.below) = _
      rw [show idx + 1 + s.below = s.below + idx + 1 by omega]
    · show (s.screen.take (idx + 1 + s.below)).getLast? = _
      rw [show idx + 1 + s.below = s.below + idx + 1 by omega]
      have hlt := (List.getElem?_eq_some_iff.1 hv).1
      rw [List.getLast?_eq_getElem?, List.getElem?_take, List.length_take, if_pos (by omega)]
      rw [show min (s.below + idx + 1) s.screen.length - 1 = s.below + idx by omega]
      exact hv
  · exfalso
    have hov : OverL s (.global (.backtrace below n)) := by
      rcases hb.top with ⟨rfl, hscr⟩ | ⟨ov', x, rfl, hx, hscr⟩
      · rw [hscr] at htop
        rcases hb.what with ⟨id, rfl, _⟩ | ⟨rfl, _⟩ <;> simp at htop
      · rw [hscr, List.getLast?_append] at htop
        simp at htop; subst htop; exact hx
    exact hov.2.2 hb.stack

/-- **C61 (zoom, then Esc).** Esc undoes a zoom. -/
theorem c61_zoom_esc {s s' : UI E} (h : Reach true OK s) (hq : s.quit = false) (hqu : Quiet s) {row : Nat}
    (hz : perform (.zoom row) s = some (some s')) (hne : s' ≠ s) :
    ∃ s'', perform .esc s' = some (some s'') ∧ s''.screen = s.screen ∧ s''.stack = s.stack := by
  have htop : ∃ v, s.screen.getLast? = some (.profile v) := by
    unfold perform at hz
    split at hz <;> simp_all
  obtain ⟨v, htop⟩ := htop
  obtain ⟨t, a, ht, hrow, hk, h1, h2⟩ := c60_zoom h htop hz
  by_cases hd : E.direct t a = []
  · exact absurd (h1 hd) hne
  · obtain ⟨v', n, hscr, hst, _⟩ := h2 hd
    have hr := Reach.step h (.user _ _ _ hq (fun _ => hqu) hz)
    have hlen : 1 < s'.screen.length := by
      have : s.screen ≠ [] := by rintro he; rw [he] at htop; cases htop
      have := List.length_pos_iff.2 this
      rw [hscr]; simp; omega
    obtain ⟨s'', he, hs1, hs2, _⟩ := (c61_esc_profile hr (v := v') (by rw [hscr]; simp)).1 hlen
    exact ⟨s'', he, by rw [hs1, hscr]; simp, by rw [hs2, hst]; simp⟩

/-- **C61 (abort).** Aborting a load brings back the screen as it was before the load, or leaves the program if there was
nothing. -/
theorem c61_abort {s : UI E} (h : Reach true OK s) {id : Nat} (htop : s.screen.getLast? = some (.loader id)) :
    ∃ s' base ov, s.screen = base ++ .loader id :: ov ∧ perform .abortLoad s = some (some s') ∧
      s'.screen = base ∧ (∀ l ∈ base, ¬ Waiting l) ∧ s'.stack = [] ∧ s'.noEscape = false ∧ (base = [] → s'.quit = true) ∧
      (base ≠ [] → s'.quit = s.quit ∧ s'.thread = none) ∧ (id, true) ∈ s'.loads := by
  have hinv := inv_reach h
  obtain ⟨base, ov, hb⟩ : ∃ base ov, Busy s base (.loader id) ov := by
    rcases hinv.phase with hd | ⟨base, views, ov, t, d, g, hp⟩ | ⟨base, b, ov, hb⟩
    · exact absurd (hd.screen _ (List.mem_of_getLast? htop)) fun h => h
    · rcases hp.top with ⟨rfl, vs, v', ps, p, rfl, hs, hf, hv, hscr⟩ | ⟨ov', x, rfl, hx, _, hscr⟩
      · rw [hscr] at htop; simp at htop
      · rw [hscr] at htop; simp at htop; subst htop; exact absurd hx fun h => h
    · have hmem := List.mem_of_getLast? htop
      rw [hb.screen] at hmem
      rcases List.mem_append.1 hmem with hm | hm
      · exact absurd (hb.base _ hm) fun h => h
      · rcases List.mem_cons.1 hm with hm | hm
        · subst hm; exact ⟨base, ov, hb⟩
        · exact absurd (hb.ov _ hm) fun h => h
  have hload : (id, true) ∈ s.loads.map fun p => if p.1 = id then (p.1, true) else p := by
    rcases hb.what with ⟨k, hk, _, hm, _⟩ | ⟨hk, _⟩
    · cases hk
      exact List.mem_map.2 ⟨_, hm, by simp⟩
    · cases hk
  have hbase : ∀ l ∈ base, ¬ Waiting l := by
    intro l hl hw
    have := hb.base l hl
    cases l <;> first | exact absurd hw fun h => h | exact absurd this fun h => h
  refine ⟨abortLoad id s, base, ov, hb.screen, by simp only [perform, htop], ?_⟩
  unfold abortLoad
  have htake : s.screen.take s.below = base := by rw [hb.screen, ← hb.len]; simp
  simp only [endWait, popTo, htake]
  split_ifs with hc
  · have : base = [] := by simpa using hc
    exact ⟨rfl, hbase, hb.stack, rfl, fun _ => rfl, fun h => absurd this h, hload⟩
  · have : base ≠ [] := by simpa using hc
    exact ⟨rfl, hbase, hb.stack, rfl, fun h => absurd h this, fun _ => ⟨rfl, rfl⟩, hload⟩

/-- **C61 (aborted loads).** The completion of an aborted load, however late, has no visible effect. -/
theorem c61_aborted_load {s s' : UI E} (h : Reach true OK s) {id : Nat} (hid : (id, true) ∈ s.loads) {r : Option E.Trace}
    (hl : loadDone id r s = some s') :
    s'.screen = s.screen ∧ s'.stack = s.stack ∧ s'.below = s.below ∧ s'.noEscape = s.noEscape ∧ s'.disp = s.disp ∧
      s'.gnorm = s.gnorm ∧ s'.thread = s.thread ∧ s'.quit = s.quit := by
  obtain ⟨p, hf, hpm, hpid⟩ := find_load (inv_reach h) (id := id) (List.mem_map.2 ⟨_, hid, rfl⟩)
  have : p = (id, true) := List.inj_on_of_nodup_map (inv_reach h).nodup hpm hid hpid
  subst this
  unfold loadDone at hl
  rw [hf] at hl
  simp at hl
  subst hl
  exact ⟨rfl, rfl, rfl, rfl, rfl, rfl, rfl, rfl⟩

/-- An aborted load stays aborted. -/
theorem c61_stays_aborted {b : Bool} {s s' : UI E} (hs : Step b OK s s') {id : Nat} (hid : (id, true) ∈ s.loads) :
    (id, true) ∈ s'.loads ∨ ∃ r, loadDone id r s = some s' := by
  have hprof : ∀ {s s' : UI E} {parent : Option E.Act} {norm : E.Norm} {items : List E.Act} {other : Other E} {kind : Kind},
      showProfile parent norm items other kind s = some s' → s'.loads = s.loads := by
    intro s s' parent norm items other kind h
    obtain ⟨d, v, rfl⟩ := showProfile_eq h
    rfl
  have hsl : ∀ s : UI E, (id, true) ∈ s.loads → (id, true) ∈ (showLoader s).loads := by
    intro s h; simp [showLoader, addLayer, h]
  have hsm : ∀ (r : Start) (s : UI E), (startMeasure r s).loads = s.loads := by
    intro r s
    cases r with
    | error two => cases two <;> rfl
    | started o => rfl
  have hgd : ∀ (g : Option Global) (s : UI E), (globalDialog g s).loads = s.loads := by
    intro g s
    unfold globalDialog
    split_ifs
    · rfl
    · cases g <;> rfl
  cases hs with
  | user _ a hq h hp =>
    left
    cases a with
    | esc =>
      cases hp
      unfold escape
      split_ifs <;> exact hid
    | quitKey => cases hp; rw [hgd]; exact hid
    | helpKey => cases hp; rw [hgd]; exact hid
    | backtraceKey => cases hp; rw [hgd]; exact hid
    | unitKey =>
      have hu : switchUnit s = some s' := by simpa [perform] using hp
      unfold switchUnit at hu
      split_ifs at hu
      · cases hu; exact hid
      · cases hd : s.disp with
        | none => rw [hd] at hu; cases hu; exact hid
        | some d =>
          rw [hd] at hu
          simp only [Option.bind_eq_bind] at hu
          obtain ⟨d', _, hu⟩ := Option.bind_eq_some_iff.1 hu
          obtain ⟨scr, _, hu⟩ := Option.bind_eq_some_iff.1 hu
          cases hu; exact hid
    | dismiss =>
      unfold perform at hp
      split at hp <;> simp_all
      all_goals subst hp; exact hid
    | quitYes =>
      unfold perform at hp
      split at hp <;> simp_all
      subst hp; exact hid
    | jump idx =>
      unfold perform at hp
      split at hp <;> simp_all
      obtain ⟨_, rfl⟩ := hp
      exact hid
    | toggle =>
      unfold perform at hp
      split at hp <;> simp_all
      unfold toggle at hp
      obtain ⟨p, _, hp⟩ := Option.bind_eq_some_iff.1 hp
      obtain ⟨items, _, hp⟩ := Option.bind_eq_some_iff.1 hp
      rw [hprof hp]; exact hid
    | zoom row =>
      unfold perform at hp
      split at hp <;> simp_all
      split at hp
      · simp only [Option.some.injEq, zoom] at hp
        obtain ⟨t, _, hp⟩ := Option.bind_eq_some_iff.1 hp
        split_ifs at hp
        · cases hp; exact hid
        · obtain ⟨n, _, hp⟩ := Option.bind_eq_some_iff.1 hp
          rw [hprof hp]; exact hid
      · cases hp
    | sort =>
      unfold perform at hp
      split at hp <;> simp_all
      rw [sort_same hp]; exact hid
    | pick w =>
      unfold perform at hp
      split at hp <;> simp_all
      subst hp
      unfold pick
      split
      · exact hid
      · exact hid
      · exact hsl _ hid
    | reply c r =>
      unfold perform at hp
      split at hp <;> simp_all
      subst hp
      unfold reply
      simp only
      split_ifs
      · rw [hsm]; exact hid
      · exact hsl _ hid
      · exact hid
    | abortLoad =>
      unfold perform at hp
      split at hp <;> simp_all
      subst hp
      rename_i k _
      unfold abortLoad
      have : (id, true) ∈ s.loads.map fun p => if p.1 = k then (p.1, true) else p :=
        List.mem_map.2 ⟨(id, true), hid, by split_ifs <;> rfl⟩
      simp only
      split_ifs <;> exact this
    | abortMeasure =>
      unfold perform at hp
      split at hp <;> simp_all
  | loaded _ k r hq h hk hr hl =>
    by_cases hkid : k = id
    · subst hkid; exact Or.inr ⟨r, hl⟩
    · left
      have hmem : (id, true) ∈ s.loads.filter (·.1 ≠ k) := by
        refine List.mem_filter.2 ⟨hid, ?_⟩
        simp; exact fun h => hkid h.symm
      unfold loadDone at hl
      simp only at hl
      split_ifs at hl
      · cases hl; exact hmem
      · cases r with
        | none => cases hl; exact hmem
        | some t =>
          obtain ⟨n, _, hl⟩ := Option.bind_eq_some_iff.1 hl
          rw [hprof hl]; exact hmem
  | callback i c rest hq hi =>
    left
    cases c with
    | endMeasure => exact hid
    | load => exact hsl _ hid
    | info => exact hid

/-! ## C62 -/

/-- **C62 (dialogs).** There is at most one dialog of global shortcuts, and such a shortcut does nothing when there is one. -/
theorem c62_one_dialog {s : UI E} (h : Reach true OK s) :
    s.screen.countP Layer.isGlobal ≤ 1 ∧
    ((∃ g, .global g ∈ s.screen) → perform .quitKey s = some (some s) ∧ perform .helpKey s = some (some s) ∧
      perform .backtraceKey s = some (some s)) := by
  refine ⟨(inv_reach h).one, ?_⟩
  rintro ⟨g, hg⟩
  have : s.screen.any Layer.isGlobal = true := List.any_eq_true.2 ⟨_, hg, rfl⟩
  simp [perform, globalDialog, this]

/-- **C62 (background).** What happens in the background, i.e. anything but a user action, never closes or hides profiles, never
removes a layer when no trace is awaited, and when one is, at most the waiting screen and the dialogs above it. -/
theorem c62_background {s s' : UI E} (h : Reach true OK s) (hs : Step true OK s s') (hu : ∀ a, perform a s ≠ some (some s')) :
    ((∀ l ∈ s.screen, ¬ Waiting l) → s.screen <+: s'.screen ∧ s.stack <+: s'.stack) ∧
    (∀ base w ov, s.screen = base ++ w :: ov → Waiting w → base <+: s'.screen ∧ s.stack = []) := by
  have hinv := inv_reach h
  have hesc := (c61_waiting h).1
  have hno : (∀ l ∈ s.screen, ¬ Waiting l) → s.noEscape = false := by
    intro hw
    cases hn : s.noEscape with
    | false => rfl
    | true =>
      obtain ⟨l, hl, hwl⟩ := hesc.1 hn
      exact absurd hwl (hw l hl)
  have hbase : ∀ base w ov, s.screen = base ++ w :: ov → Waiting w → base = s.screen.take s.below ∧ s.stack = [] := by
    intro base w ov hscr hw
    have hn := hesc.2 ⟨w, by rw [hscr]; simp, hw⟩
    rcases hinv.phase with hd | ⟨base', views, ov', t, d, g, hp⟩ | ⟨base', b, ov', hb⟩
    · rw [hd.esc] at hn; cases hn
    · rw [hp.esc] at hn; cases hn
    · have htake : s.screen.take s.below = base' := by rw [hb.screen, ← hb.len]; simp
      refine ⟨?_, hb.stack⟩
      rw [htake]
      have heq := hb.screen
      rw [hscr] at heq
      have hwb : Waiting b := by rcases hb.what with ⟨id, rfl, _⟩ | ⟨rfl, _⟩ <;> trivial
      have hnb : ∀ l ∈ base', ¬ Waiting l := by
        intro l hl hw
        have := hb.base l hl
        cases l <;> first | exact absurd hw fun h => h | exact absurd this fun h => h
      have hno' : ∀ l ∈ ov', ¬ Waiting l := by
        intro l hl hw
        have := hb.ov l hl
        cases l <;> first | exact absurd hw fun h => h | exact absurd this fun h => h
      rcases List.append_eq_append_iff.1 heq with ⟨m, h1, h2⟩ | ⟨m, h1, h2⟩
      · cases m with
        | nil => simpa using h1.symm
        | cons x m =>
          simp at h2
          exact absurd hw (hnb w (by rw [h1, h2.1]; simp))
      · cases m with
        | nil => simpa using h1
        | cons x m =>
          simp at h2
          exact absurd hw (hno' w (by rw [h2.2]; simp))
  have hsub : s.screen.take s.below <+: s.screen := List.take_prefix _ _
  cases hs with
  | user _ a hq hqu hp => exact absurd hp (hu a)
  | loaded _ id r hq hqu hid hr hl =>
    obtain ⟨p, hf, hpm, hpid⟩ := find_load hinv hid
    unfold loadDone at hl
    rw [hf] at hl
    simp only [Option.any_some] at hl
    split_ifs at hl with hc
    · cases hl
      refine ⟨fun _ => ⟨List.prefix_refl _, List.prefix_refl _⟩, ?_⟩
      intro base w ov hscr hw
      refine ⟨?_, (hbase base w ov hscr hw).2⟩
      show base <+: s.screen
      rw [hscr]; exact List.prefix_append _ _
    · have hp2 : p = (id, false) := by
        obtain ⟨a, b⟩ := p
        simp at hpid hc; subst hpid; subst hc; rfl
      obtain ⟨hw, hst⟩ := load_busy hinv (id := id) (by rw [← hp2]; exact hpm)
      refine ⟨fun h => (by rw [hno h] at hw; cases hw), ?_⟩
      intro base w ov hscr hw
      obtain ⟨h1, h2⟩ := hbase base w ov hscr hw
      refine ⟨?_, h2⟩
      rw [h1]
      cases r with
      | none => cases hl; exact List.prefix_append _ _
      | some t =>
        obtain ⟨n, _, hl⟩ := Option.bind_eq_some_iff.1 hl
        obtain ⟨d', v', rfl⟩ := showProfile_eq hl
        exact List.prefix_append _ _
  | callback i c rest hq hth =>
    cases c with
    | endMeasure =>
      obtain ⟨hw, hst⟩ := endMeasure_busy hinv hth
      refine ⟨fun h => (by rw [hno h] at hw; cases hw), ?_⟩
      intro base w ov hscr hw
      obtain ⟨h1, h2⟩ := hbase base w ov hscr hw
      exact ⟨by rw [h1]; exact List.prefix_refl _, h2⟩
    | load =>
      refine ⟨fun _ => ⟨List.prefix_append _ _, List.prefix_refl _⟩, ?_⟩
      intro base w ov hscr hw
      obtain ⟨h1, h2⟩ := hbase base w ov hscr hw
      refine ⟨?_, h2⟩
      rw [h1]
      exact hsub.trans (List.prefix_append _ _)
    | info =>
      refine ⟨fun _ => ⟨List.prefix_append _ _, List.prefix_refl _⟩, ?_⟩
      intro base w ov hscr hw
      obtain ⟨h1, h2⟩ := hbase base w ov hscr hw
      refine ⟨?_, h2⟩
      rw [h1]
      exact hsub.trans (List.prefix_append _ _)

/-! ## An example, and defects -/

/-- A trace with two nested activities. -/
def demo : Env where
  Trace := Unit
  Act := Nat
  Norm := Unit
  roots _ := [0]
  all _ := [0, 1]
  direct _ a := if a = 0 then [1] else []
  allChildren _ a := if a = 0 then [1] else []
  globalNorm _ := some ()
  norm _ _ := some ()

theorem demo_ok : ∀ t : demo.Trace, Displayable t := by
  intro t
  refine ⟨by simp [demo], by simp [demo], rfl, fun _ _ => rfl, ?_⟩
  intro a ha
  exact ha

/-- The root profile. -/
def dv0 : View demo := ⟨0, .hier, .global (), [(0 : Nat)], .fetch none⟩
/-- The profile of activity 0. -/
def dv1 : View demo := ⟨1, .hier, .global (), [(1 : Nat)], .fetch (some (0 : Nat))⟩
/-- Their descriptions. -/
def dp0 : Prof demo := ⟨none, 0, (), .hier⟩
def dp1 : Prof demo := ⟨some (0 : Nat), 1, (), .hier⟩

/-- A trace is loaded, then its root activity is opened: a reachable state with two profiles. -/
def demoState : UI demo :=
  ⟨[.profile dv0, .profile dv1], [dp0, dp1], 0, false, false, some (), some (.global ()), some (), [], 1, [], false⟩

theorem demo_reach (b : Bool) : Reach (E := demo) b (fun _ => True) demoState := by
  have r0 : Reach (E := demo) b (fun _ => True) _ := Reach.init _ .trace
  have r1 := Reach.step r0 (.loaded _ ⟨[.profile dv0], [dp0], 0, false, false, some (), some (.global ()), some (), [], 1, [], false⟩
    0 (some ()) rfl (fun _ => by intro th hth; cases hth) (by decide) (fun _ _ => trivial) rfl)
  exact Reach.step r1 (.user _ _ (.zoom 0) rfl (fun _ => by intro th hth; cases hth) rfl)

/-- The hypotheses of the theorems above hold there. -/
example : demoState.stack.length = 2 ∧ demoState.screen.getLast? = some (.profile dv1) ∧ 1 < demoState.screen.length ∧
    demoState.quit = false ∧ Quiet demoState :=
  ⟨rfl, rfl, by decide, rfl, by intro th hth; cases hth⟩

/-- Example of `c60_toggle`. -/
example : ∃ s', perform .toggle demoState = some (some s') := ⟨_, rfl⟩

/-- Example of `c61_jump`. -/
example : ∃ s, Reach (E := demo) true (fun _ => True) s ∧ s.screen.getLast? = some (.global (.backtrace 0 2)) :=
  ⟨_, Reach.step (demo_reach true) (.user _ _ .backtraceKey rfl (fun _ => by intro th hth; cases hth) rfl), rfl⟩

/-- **C61 (blank screen).** In single-trace mode, after the message about a trace that cannot be loaded, nothing is left
on the screen, though the program goes on. -/
theorem c61_blank_screen : ∃ s : UI demo, Reach true (fun _ => True) s ∧ s.screen = [] ∧ s.quit = false := by
  have r0 : Reach (E := demo) true (fun _ => True) _ := Reach.init _ .trace
  have r1 := Reach.step r0 (.loaded _ _ 0 none rfl (fun _ => by intro th hth; cases hth) (by decide) (by simp) rfl)
  have r2 := Reach.step r1 (.user _ _ .dismiss rfl (fun _ => by intro th hth; cases hth) rfl)
  exact ⟨_, r2, rfl, rfl⟩

/-- The UI after a successful measurement of which the callbacks `cbs` have not run. -/
def afterMeasure (cbs : List Cb) (scr : List (Layer demo)) (below : Nat) (ne : Bool) (loads : List (Nat × Bool)) (next : Nat) : UI demo :=
  ⟨scr, [], below, ne, true, none, none, none, loads, next, [cbs], false⟩

theorem measured (b : Bool) (e : Bool) :
    Reach (E := demo) b (fun _ => True) (afterMeasure ([.load] ++ if e then [.info] else []) [.build] 1 false [] 0) := by
  have q : ∀ (ths : List (List Cb)) (s : UI demo), s.threads = ths → (∀ th ∈ ths, th.head? ≠ some .load) → Quiet s := by
    intro ths s hs h; rw [Quiet, hs]; exact h
  have r0 : Reach (E := demo) b (fun _ => True) _ := Reach.init _ .build
  have r1 := Reach.step r0 (.user _ _ (.pick (.prompt true)) rfl (fun _ => q [] _ rfl (by simp)) rfl)
  have r2 := Reach.step r1 (.user _ _ (.reply true (.started (.success e))) rfl (fun _ => q [] _ rfl (by simp)) rfl)
  have r3 := Reach.step r2 (.callback _ 0 .endMeasure ([.load] ++ if e then [.info] else []) rfl (by cases e <;> rfl))
  exact r3

/-- **C62 (lost messages).** The message that a backup file could not be deleted, sent after a load has been started, disappears
when this load completes, whether or not the user has seen it. -/
theorem c62_message_lost : ∃ s s' : UI demo, Reach true (fun _ => True) s ∧ Step true (fun _ => True) s s' ∧
    s.screen.getLast? = some .info ∧ (∀ a, perform a s ≠ some (some s')) ∧ .info ∉ s'.screen := by
  have r1 := Reach.step (measured true true) (.callback _ 0 .load [.info] rfl rfl)
  have r2 := Reach.step r1 (.callback _ 0 .info [] rfl rfl)
  have q : ∀ (s : UI demo), s.threads = [[]] → Quiet s := by
    intro s hs; rw [Quiet, hs]; simp
  refine ⟨_, ⟨[.build, .profile dv0], [dp0], 1, false, true, some (), some (.global ()), some (), [], 1, [[]], false⟩, r2,
    .loaded _ _ 0 (some ()) rfl (fun _ => q _ rfl) (by decide) (fun _ _ => trivial) rfl, rfl, ?_, by simp⟩
  intro a ha
  have hinv := inv_user (inv_reach r2) (q _ rfl) ha
  cases a with
  | dismiss => cases ha
  | esc => cases ha
  | quitKey => cases ha
  | helpKey => cases ha
  | backtraceKey => cases ha
  | unitKey => cases ha
  | _ => cases ha

/-- **C42 (race).** Without the assumption that users do not act between the end of a measurement and the load of its result, profiles
and layers may get out of step, even if all traces can be displayed: a second load is then started above the profiles of
the first one, and the shortcut that switches units panics later. -/
theorem c42_race : ∃ s : UI demo, Reach false (fun _ => True) s ∧ (∀ t : demo.Trace, Displayable t) ∧ perform .unitKey s = some none := by
  have r1 := Reach.step (measured false false) (.user _ _ (.pick .load) rfl (by simp) rfl)
  have r2 := Reach.step r1 (.loaded _ ⟨[.build, .profile dv0], [dp0], 1, false, true, some (), some (.global ()), some (), [], 1, [[.load]], false⟩
    0 (some ()) rfl (by simp) (by decide) (fun _ _ => trivial) rfl)
  have r3 := Reach.step r2 (.callback _ 0 .load [] rfl rfl)
  have r4 := Reach.step r3 (.loaded _ ⟨[.build, .profile dv0, .profile { dv0 with id := 1 }], [dp0, { dp0 with id := 1 }], 2, false, true,
    some (), some (.global ()), some (), [], 2, [[]], false⟩ 1 (some ()) rfl (by simp) (by decide) (fun _ _ => trivial) rfl)
  have r5 := Reach.step r4 (.user _ _ .esc rfl (by simp) rfl)
  exact ⟨_, r5, demo_ok, rfl⟩

end Verif.Tui.Stack
