import Verif.Display.Bounded
import Verif.Intern.Interner

/-!
# C41: description caching is transparent

The processing thread of src/ui/tui/processing.rs: `worker` (231-339), `describe_activities` (361-399),
`describe_activity` (404-441), and the client side (`ProcessingThread`, 31-169) with its channels.

The trace and its parsers are abstract (`Engine`): parsing an argument changes the trace's interners,
which is exactly why caching and the order of requests could matter. The laws the engine must obey are
those of the interners (C14-C19): more parsing never changes what was parsed before.
-/

set_option autoImplicit false
set_option linter.unusedVariables false
set_option linter.unusedSimpArgs false

namespace Verif.Tui.Proc

open Verif.Display

/-- Queries about the activity tree (replied to on the activities channel, processing.rs 206-216). -/
inductive Query (Id : Type) where
  | roots | all
  | directChildren (id : Id)
  | allChildren (id : Id)
  deriving DecidableEq

/-- A loaded trace as the processing thread uses it. `none` stands for a panic. -/
structure Engine where
  /-- the trace, including parser state -/
  T : Type
  Id : Type
  [dec : DecidableEq Id]
  /-- `ParsedActivityArgument`, made of interner keys -/
  A : Type
  /-- list of `ActivityInfo` -/
  I : Type
  /-- `force_parse_arg` (src/ui/mod.rs 13-28) -/
  parse : T → Id → Option (T × A)
  /-- `parsed_arg.resolve(trace)` -/
  resolve : T → A → Option Arg
  /-- name of an activity -/
  name : T → Id → Option Text
  /-- activity lists -/
  query : T → Query Id → Option I
  /-- src/ui/display/metadata.rs -/
  describe : T → Nat → Option Text

attribute [instance] Engine.dec

/-- What is required of the trace and of its interners: `Ext t t'` means that `t'` is `t` after some more
parsing, `value t id` is what the argument of `id` denotes. -/
structure Engine.Laws (E : Engine) where
  Ext : E.T → E.T → Prop
  refl : ∀ t, Ext t t
  trans : ∀ {a b c}, Ext a b → Ext b c → Ext a c
  value : E.T → E.Id → Option Arg
  parse_ext : ∀ {t id t' a}, E.parse t id = some (t', a) → Ext t t' ∧ (∃ v, value t id = some v ∧ E.resolve t' a = some v)
  value_ext : ∀ {t t'}, Ext t t' → value t' = value t
  resolve_ext : ∀ {t t' a v}, Ext t t' → E.resolve t a = some v → E.resolve t' a = some v
  name_ext : ∀ {t t'}, Ext t t' → E.name t' = E.name t
  query_ext : ∀ {t t'}, Ext t t' → E.query t' = E.query t
  describe_ext : ∀ {t t'}, Ext t t' → E.describe t' = E.describe t

variable {E : Engine} {M : Metrics}

/-- processing.rs 196-228; `load r`: the outcome of `ClangTrace::from_file`. -/
inductive Req (E : Engine) where
  | load (r : Option E.T)
  | describeTrace (maxCols : Nat)
  | query (q : Query E.Id)
  | describeActivities (ids : List E.Id) (maxCols : Nat)
  | describeActivity (id : E.Id) (maxCols : Nat)

/-- The reply channels (processing.rs 40-48). -/
inductive Chan where
  | string | activities | descs
  deriving DecidableEq

/-- What travels on them. -/
inductive Reply (E : Engine) where
  | string (s : Text) (wrap : Bool)
  | activities (l : E.I)
  | descs (l : List Text)

/-- The channel the client listens to for each request (processing.rs 105-152). -/
def Req.chan : Req E → Option Chan
  | .load _ => none
  | .describeTrace _ => some .string
  | .query _ => some .activities
  | .describeActivities _ _ => some .descs
  | .describeActivity _ _ => some .string

/-- The channel a reply is sent on. -/
def Reply.chan : Reply E → Chan
  | .string _ _ => .string
  | .activities _ => .activities
  | .descs _ => .descs

/-- Local variables of `worker` (processing.rs 238-246). `HashMap`s are partial functions. -/
structure W (E : Engine) where
  trace : Option E.T
  args : E.Id → Option E.A
  descs : E.Id → Option Text
  lastMaxCols : Nat

/-- processing.rs 238-246 -/
def W.new : W E := ⟨none, fun _ => none, fun _ => none, 0⟩

/-- `HashMap::insert`. -/
def put {E : Engine} {V : Type} (m : E.Id → Option V) (k : E.Id) (v : V) : E.Id → Option V := fun k' => if k' = k then some v else m k'

/-- The end of `describe_activity`: `NotEnoughCols` becomes an ellipsis, panics stay panics
(processing.rs 415-440). Nothing is written to the output before `NotEnoughCols` is returned
(src/ui/display/activity.rs 37-57). -/
def finishDesc : DescResult → Option (Text × Bool)
  | .ok text wrap => some (text, wrap)
  | .notEnoughCols _ => some ([['…']], false)
  | .panic => none

/-- processing.rs 404-441 `describe_activity`; returns the new trace and argument cache too. -/
def describeActivity (M : Metrics) (t : E.T) (args : E.Id → Option E.A) (id : E.Id) (cfg : Config) :
    Option (E.T × (E.Id → Option E.A) × Text × Bool) := do
  let (t, args, a) ← match args id with
    | some a => some (t, args, a)
    | none => do
      let (t', a) ← E.parse t id
      some (t', put args id a, a)
  let name ← E.name t id
  let v ← E.resolve t a
  let (text, wrap) ← finishDesc (displayActivityDesc M name v cfg)
  some (t, args, text, wrap)

/-- processing.rs 361-399 `describe_activities` -/
def describeActivities (M : Metrics) (maxCols : Nat) : E.T → (E.Id → Option E.A) → (E.Id → Option Text) → List E.Id →
    Option (E.T × (E.Id → Option E.A) × (E.Id → Option Text) × List Text)
  | t, args, descs, [] => some (t, args, descs, [])
  | t, args, descs, id :: ids => do
    let (t, args, descs, d) ← match descs id with
      | some d => some (t, args, descs, d)
      | none => do
        let (t', args', d, wrap) ← describeActivity M t args id (.singleLine maxCols)
        if wrap then none else some (t', args', put descs id d, d)
    let (t, args, descs, ds) ← describeActivities M maxCols t args descs ids
    some (t, args, descs, d :: ds)

/-- One iteration of the loop of `worker` (processing.rs 249-338): the new state and the reply; `none` if
the thread panics. The load callback is not a reply; it is called with success iff `r` is `some`. -/
def handle (M : Metrics) (w : W E) : Req E → Option (W E × Option (Reply E))
  | .load r => some (⟨r, fun _ => none, fun _ => none, w.lastMaxCols⟩, none)
  | .describeTrace maxCols => do
    let t ← w.trace
    let s ← E.describe t maxCols
    some (w, some (.string s false))
  | .query q => do
    let t ← w.trace
    let l ← E.query t q
    some (w, some (.activities l))
  | .describeActivities ids maxCols => do
    let descs := if maxCols ≠ w.lastMaxCols then (fun _ => none) else w.descs
    let t ← w.trace
    let (t, args, descs, ds) ← describeActivities M maxCols t w.args descs ids
    some (⟨some t, args, descs, maxCols⟩, some (.descs ds))
  | .describeActivity id maxCols => do
    let t ← w.trace
    let (t, args, s, wrap) ← describeActivity M t w.args id (.multiLine maxCols 0 0)
    some (⟨some t, args, w.descs, w.lastMaxCols⟩, some (.string s wrap))

/-! ## Specification: no caches, no mutable trace -/

/-- Description of activity `id` of trace `t`, computed from scratch. -/
def freshDesc (L : E.Laws) (M : Metrics) (t : E.T) (id : E.Id) (cfg : Config) : Option (Text × Bool) := do
  let v ← L.value t id
  let name ← E.name t id
  finishDesc (displayActivityDesc M name v cfg)

/-- The reply to a request about a trace `t` that was just loaded, computed from scratch. -/
def freshReply (L : E.Laws) (M : Metrics) (t : E.T) : Req E → Option (Reply E)
  | .load _ => none
  | .describeTrace maxCols => (E.describe t maxCols).map (.string · false)
  | .query q => (E.query t q).map .activities
  | .describeActivities ids maxCols =>
    (ids.mapM fun id => (freshDesc L M t id (.singleLine maxCols)).map Prod.fst).map .descs
  | .describeActivity id maxCols => (freshDesc L M t id (.multiLine maxCols 0 0)).map fun p => .string p.1 p.2

/-! ## The caches only hold what a fresh computation gives -/

/-- `w` is what the worker may have become since it loaded `t0`. -/
structure Coherent (L : E.Laws) (M : Metrics) (t0 : E.T) (w : W E) : Prop where
  ext : ∃ t, w.trace = some t ∧ L.Ext t0 t ∧ ∀ id a, w.args id = some a → ∃ v, L.value t0 id = some v ∧ E.resolve t a = some v
  descs : ∀ id d, w.descs id = some d → freshDesc L M t0 id (.singleLine w.lastMaxCols) = some (d, false)

/-- Coherence of the argument cache alone. -/
def ArgsOk (L : E.Laws) (t0 t : E.T) (args : E.Id → Option E.A) : Prop :=
  L.Ext t0 t ∧ ∀ id a, args id = some a → ∃ v, L.value t0 id = some v ∧ E.resolve t a = some v

theorem describeActivity_ok (L : E.Laws) (M : Metrics) (t0 t : E.T) (args : E.Id → Option E.A) (h : ArgsOk L t0 t args)
    (id : E.Id) (cfg : Config) (t' : E.T) (args' : E.Id → Option E.A) (s : Text) (wrap : Bool)
    (hd : describeActivity M t args id cfg = some (t', args', s, wrap)) :
    ArgsOk L t0 t' args' ∧ freshDesc L M t0 id cfg = some (s, wrap) := by
  unfold describeActivity at hd
  have key : ∀ (t1 : E.T) (args1 : E.Id → Option E.A) (a : E.A), ArgsOk L t0 t1 args1 →
      (∃ v, L.value t0 id = some v ∧ E.resolve t1 a = some v) →
      (do
        let name ← E.name t1 id
        let v ← E.resolve t1 a
        let (text, wrap) ← finishDesc (displayActivityDesc M name v cfg)
        some (t1, args1, text, wrap)) = some (t', args', s, wrap) →
      ArgsOk L t0 t' args' ∧ freshDesc L M t0 id cfg = some (s, wrap) := by
    intro t1 args1 a hok hv hd
    obtain ⟨v, hv1, hv2⟩ := hv
    unfold freshDesc
    rw [L.name_ext hok.1] at hd
    cases hn : E.name t0 id with
    | none => simp [hn] at hd
    | some name =>
      simp only [hn, hv2, Option.bind_eq_bind, Option.bind_some] at hd
      cases hf : finishDesc (displayActivityDesc M name v cfg) with
      | none => simp [hf] at hd
      | some p =>
        simp only [hf, Option.bind_some, Option.some.injEq, Prod.mk.injEq] at hd
        obtain ⟨rfl, rfl, h3, h4⟩ := hd
        refine ⟨hok, ?_⟩
        simp only [hv1, Option.bind_eq_bind, Option.bind_some, hf]
        rw [← h3, ← h4]
  cases ha : args id with
  | some a =>
    simp only [ha, Option.bind_eq_bind, Option.bind_some] at hd
    exact key t args a h (h.2 id a ha) hd
  | none =>
    simp only [ha] at hd
    cases hp : E.parse t id with
    | none => simp [hp] at hd
    | some p =>
      obtain ⟨t1, a⟩ := p
      simp only [hp, Option.bind_eq_bind, Option.bind_some] at hd
      obtain ⟨hext, v, hv1, hv2⟩ := L.parse_ext hp
      have hv0 : L.value t0 id = some v := by rw [← L.value_ext h.1]; exact hv1
      refine key t1 (put args id a) a ⟨L.trans h.1 hext, ?_⟩ ⟨v, hv0, hv2⟩ hd
      intro id' a' ha'
      unfold put at ha'
      split_ifs at ha' with e
      · cases ha'; subst e; exact ⟨v, hv0, hv2⟩
      · obtain ⟨v', hv1', hv2'⟩ := h.2 id' a' ha'
        exact ⟨v', hv1', L.resolve_ext hext hv2'⟩

theorem describeActivities_ok (L : E.Laws) (M : Metrics) (t0 : E.T) (maxCols : Nat) (ids : List E.Id) :
    ∀ (t : E.T) (args : E.Id → Option E.A) (descs : E.Id → Option Text), ArgsOk L t0 t args →
      (∀ id d, descs id = some d → freshDesc L M t0 id (.singleLine maxCols) = some (d, false)) →
      ∀ t' args' descs' ds, describeActivities M maxCols t args descs ids = some (t', args', descs', ds) →
      ArgsOk L t0 t' args' ∧
      (∀ id d, descs' id = some d → freshDesc L M t0 id (.singleLine maxCols) = some (d, false)) ∧
      ids.mapM (fun id => (freshDesc L M t0 id (.singleLine maxCols)).map Prod.fst) = some ds := by
  induction ids with
  | nil =>
    intro t args descs h hd t' args' descs' ds hds
    simp only [describeActivities, Option.some.injEq, Prod.mk.injEq] at hds
    obtain ⟨rfl, rfl, rfl, rfl⟩ := hds
    exact ⟨h, hd, rfl⟩
  | cons id ids ih =>
    intro t args descs h hd t' args' descs' ds hds
    have key : ∀ (t1 : E.T) (args1 : E.Id → Option E.A) (descs1 : E.Id → Option Text) (d : Text), ArgsOk L t0 t1 args1 →
        (∀ id d, descs1 id = some d → freshDesc L M t0 id (.singleLine maxCols) = some (d, false)) →
        freshDesc L M t0 id (.singleLine maxCols) = some (d, false) →
        (do
          let (t, args, descs, ds) ← describeActivities M maxCols t1 args1 descs1 ids
          some (t, args, descs, d :: ds)) = some (t', args', descs', ds) →
        ArgsOk L t0 t' args' ∧
        (∀ id d, descs' id = some d → freshDesc L M t0 id (.singleLine maxCols) = some (d, false)) ∧
        (id :: ids).mapM (fun id => (freshDesc L M t0 id (.singleLine maxCols)).map Prod.fst) = some ds := by
      intro t1 args1 descs1 d h1 hd1 hf hds
      cases hr : describeActivities M maxCols t1 args1 descs1 ids with
      | none => simp [hr] at hds
      | some p =>
        obtain ⟨t2, args2, descs2, ds2⟩ := p
        simp only [hr, Option.bind_eq_bind, Option.bind_some, Option.some.injEq, Prod.mk.injEq] at hds
        obtain ⟨rfl, rfl, rfl, rfl⟩ := hds
        obtain ⟨g1, g2, g3⟩ := ih t1 args1 descs1 h1 hd1 _ _ _ _ hr
        refine ⟨g1, g2, ?_⟩
        rw [List.mapM_cons, hf, g3]
        rfl
    unfold describeActivities at hds
    cases hc : descs id with
    | some d =>
      simp only [hc, Option.bind_eq_bind, Option.bind_some] at hds
      exact key t args descs d h hd (hd id d hc) hds
    | none =>
      simp only [hc] at hds
      cases hx : describeActivity M t args id (.singleLine maxCols) with
      | none => simp [hx] at hds
      | some p =>
        obtain ⟨t1, args1, d, wrap⟩ := p
        obtain ⟨g1, g2⟩ := describeActivity_ok L M t0 t args h id _ _ _ _ _ hx
        cases wrap with
        | true => simp [hx] at hds
        | false =>
          simp only [hx, Option.bind_eq_bind, Option.bind_some, Bool.false_eq_true, if_false] at hds
          refine key t1 args1 (put descs id d) d g1 ?_ g2 hds
          intro id' d' hd'
          unfold put at hd'
          split_ifs at hd' with e
          · cases hd'; subst e; exact g2
          · exact hd id' d' hd'

/-- One request on a coherent worker. -/
theorem handle_ok (L : E.Laws) (M : Metrics) (t0 : E.T) (w w' : W E) (h : Coherent L M t0 w) (q : Req E) (r : Option (Reply E))
    (hq : ∀ x, q ≠ .load x) (hh : handle M w q = some (w', r)) :
    Coherent L M t0 w' ∧ r = freshReply L M t0 q ∧ r.isSome = true ∧ r.map Reply.chan = q.chan := by
  obtain ⟨⟨t, ht, hext, hargs⟩, hdescs⟩ := h
  cases q with
  | load x => exact absurd rfl (hq x)
  | describeTrace n =>
    simp only [handle, ht, Option.bind_eq_bind, Option.bind_some] at hh
    rw [L.describe_ext hext] at hh
    cases hd : E.describe t0 n with
    | none => simp [hd] at hh
    | some s =>
      simp only [hd, Option.bind_some, Option.some.injEq, Prod.mk.injEq] at hh
      obtain ⟨rfl, rfl⟩ := hh
      exact ⟨⟨⟨t, ht, hext, hargs⟩, hdescs⟩, by simp [freshReply, hd], rfl, rfl⟩
  | query q =>
    simp only [handle, ht, Option.bind_eq_bind, Option.bind_some] at hh
    rw [L.query_ext hext] at hh
    cases hd : E.query t0 q with
    | none => simp [hd] at hh
    | some s =>
      simp only [hd, Option.bind_some, Option.some.injEq, Prod.mk.injEq] at hh
      obtain ⟨rfl, rfl⟩ := hh
      exact ⟨⟨⟨t, ht, hext, hargs⟩, hdescs⟩, by simp [freshReply, hd], rfl, rfl⟩
  | describeActivities ids n =>
    simp only [handle, ht, Option.bind_eq_bind, Option.bind_some] at hh
    cases hd : describeActivities M n t w.args (if n ≠ w.lastMaxCols then (fun _ => none) else w.descs) ids with
    | none => rw [hd] at hh; simp at hh
    | some p =>
      obtain ⟨t1, args1, descs1, ds⟩ := p
      rw [hd] at hh
      simp only [Option.bind_some, Option.some.injEq, Prod.mk.injEq] at hh
      obtain ⟨rfl, rfl⟩ := hh
      have hdescs' : ∀ id d, (if n ≠ w.lastMaxCols then (fun _ => none) else w.descs) id = some d →
          freshDesc L M t0 id (.singleLine n) = some (d, false) := by
        intro id d hid
        split_ifs at hid with e
        · simp only [ne_eq, not_not] at e; rw [e]; exact hdescs id d hid
      obtain ⟨g1, g2, g3⟩ := describeActivities_ok L M t0 n ids t w.args _ ⟨hext, hargs⟩ hdescs' _ _ _ _ hd
      exact ⟨⟨⟨t1, rfl, g1.1, g1.2⟩, g2⟩, by simp [freshReply, g3], rfl, rfl⟩
  | describeActivity id n =>
    simp only [handle, ht, Option.bind_eq_bind, Option.bind_some] at hh
    cases hd : describeActivity M t w.args id (.multiLine n 0 0) with
    | none => rw [hd] at hh; simp at hh
    | some p =>
      obtain ⟨t1, args1, s, wrap⟩ := p
      rw [hd] at hh
      simp only [Option.bind_some, Option.some.injEq, Prod.mk.injEq] at hh
      obtain ⟨rfl, rfl⟩ := hh
      obtain ⟨g1, g2⟩ := describeActivity_ok L M t0 t w.args ⟨hext, hargs⟩ id _ _ _ _ _ hd
      exact ⟨⟨⟨t1, rfl, g1.1, g1.2⟩, hdescs⟩, by simp [freshReply, g2], rfl, rfl⟩

theorem coherent_load (L : E.Laws) (M : Metrics) (w : W E) (t0 : E.T) :
    Coherent L M t0 ⟨some t0, fun _ => none, fun _ => none, w.lastMaxCols⟩ :=
  ⟨⟨t0, rfl, L.refl t0, by simp⟩, by simp⟩

/-! ## Client, worker and channels -/

/-- The whole system. `inbox`: instruction channel, `out`: the three reply channels, `waiting`: the
request the client is blocked on, `loaded`: outcome of the last load the client asked for (the trace it
believes to be talking about), `log`: requests with the replies the client got, most recent first, each
with the value of `loaded` at the time; `crashed`: the processing thread panicked. -/
structure Sys (E : Engine) where
  w : W E
  crashed : Bool
  inbox : List (Req E)
  out : Chan → List (Reply E)
  waiting : Option (Req E)
  loaded : Option E.T
  log : List (Option E.T × Req E × Reply E)

/-- Steps: the client asks for a trace to be loaded and goes on (`start_load_trace`, 88-97), asks
something and waits (`request`, 156-160), gets its reply (`fetch`, 164-168); the worker handles its next
instruction, or panics on it. -/
inductive Sys.Step (M : Metrics) : Sys E → Sys E → Prop where
  | load (s : Sys E) (r : Option E.T) (h : s.waiting = none) :
      Sys.Step M s { s with inbox := s.inbox ++ [.load r], loaded := r }
  | ask (s : Sys E) (q : Req E) (h : s.waiting = none) (hq : ∀ x, q ≠ .load x) :
      Sys.Step M s { s with inbox := s.inbox ++ [q], waiting := some q }
  | work (s : Sys E) (q : Req E) (rest : List (Req E)) (w' : W E) (h : s.inbox = q :: rest) (hc : s.crashed = false)
      (hh : handle M s.w q = some (w', none)) :
      Sys.Step M s { s with w := w', inbox := rest }
  | workReply (s : Sys E) (q : Req E) (rest : List (Req E)) (w' : W E) (r : Reply E) (h : s.inbox = q :: rest) (hc : s.crashed = false)
      (hh : handle M s.w q = some (w', some r)) :
      Sys.Step M s { s with w := w', inbox := rest, out := fun c => if c = r.chan then s.out c ++ [r] else s.out c }
  | crash (s : Sys E) (q : Req E) (rest : List (Req E)) (h : s.inbox = q :: rest) (hc : s.crashed = false)
      (hh : handle M s.w q = none) : Sys.Step M s { s with crashed := true }
  | fetch (s : Sys E) (q : Req E) (c : Chan) (r : Reply E) (rest : List (Reply E)) (h : s.waiting = some q) (hc : q.chan = some c)
      (ho : s.out c = r :: rest) :
      Sys.Step M s { s with waiting := none, out := fun c' => if c' = c then rest else s.out c', log := (s.loaded, q, r) :: s.log }

/-- `ProcessingThread::start` (51-80) -/
def Sys.init : Sys E := ⟨W.new, false, [], fun _ => [], none, none, []⟩

/-- Reachable states. -/
inductive Sys.Reach (M : Metrics) : Sys E → Prop where
  | init : Sys.Reach M Sys.init
  | step {s s'} (h : Sys.Reach M s) (hs : Sys.Step M s s') : Sys.Reach M s'

/-- Every request in the list is a load. -/
def AllLoads (l : List (Req E)) : Prop := ∀ q ∈ l, ∃ r, q = .load r

/-- The outcome of the last load among `l`, or `d`. -/
def lastLoad (d : Option E.T) (l : List (Req E)) : Option E.T :=
  l.foldl (fun d q => match q with
    | .load r => r
    | _ => d) d

/-- What the worker holds is coherent with trace `t` (or it holds none). -/
def Tracks (L : E.Laws) (M : Metrics) (w : W E) : Option E.T → Prop
  | some t => Coherent L M t w
  | none => w.trace = none

/-- Invariant of the system. -/
structure Sys.Inv (L : E.Laws) (M : Metrics) (s : Sys E) : Prop where
  /-- the worker works on the trace it loaded last, and will be at `loaded` once the inbox is empty -/
  cur : ∃ t, Tracks L M s.w t ∧ lastLoad t s.inbox = s.loaded
  idle : s.waiting = none → AllLoads s.inbox ∧ ∀ c, s.out c = []
  wait : ∀ q, s.waiting = some q → (∀ x, q ≠ .load x) ∧
    ((∃ ls, s.inbox = ls ++ [q] ∧ AllLoads ls ∧ ∀ c, s.out c = []) ∨
     (s.inbox = [] ∧ ∃ r t, s.loaded = some t ∧ freshReply L M t q = some r ∧ q.chan = some r.chan ∧
       ∀ c, s.out c = if c = r.chan then [r] else []))
  good : ∀ e ∈ s.log, ∃ t, e.1 = some t ∧ freshReply L M t e.2.1 = some e.2.2

theorem lastLoad_append (d : Option E.T) (l : List (Req E)) (q : Req E) :
    lastLoad d (l ++ [q]) = match q with
      | .load r => r
      | _ => lastLoad d l := by
  unfold lastLoad; rw [List.foldl_append]; cases q <;> rfl

theorem sys_step (L : E.Laws) (M : Metrics) {s s' : Sys E} (h : s.Inv L M) (hs : Sys.Step M s s') : s'.Inv L M := by
  obtain ⟨⟨t, htr, hll⟩, hidle, hwait, hgood⟩ := h
  cases hs with
  | load r hw =>
    obtain ⟨h1, h2⟩ := hidle hw
    refine ⟨⟨t, htr, by simp only [lastLoad_append]⟩, ?_, by simp [hw], hgood⟩
    intro _
    refine ⟨?_, h2⟩
    intro q hq
    simp only [List.mem_append, List.mem_singleton] at hq
    rcases hq with hq | rfl
    · exact h1 q hq
    · exact ⟨r, rfl⟩
  | ask q hw hq =>
    obtain ⟨h1, h2⟩ := hidle hw
    refine ⟨⟨t, htr, ?_⟩, by simp, ?_, hgood⟩
    · simp only [lastLoad_append]
      cases q with
      | load x => exact absurd rfl (hq x)
      | _ => exact hll
    · intro q' hq'
      simp only [Option.some.injEq] at hq'
      subst hq'
      exact ⟨hq, Or.inl ⟨s.inbox, rfl, h1, h2⟩⟩
  | work q rest w' hin hc hh =>
    -- only loads have no reply
    have hload : ∃ r, q = .load r := by
      by_contra hno
      have hno' : ∀ x, q ≠ .load x := fun x e => hno ⟨x, e⟩
      cases t with
      | some t =>
        have := (handle_ok L M t s.w w' htr q none hno' hh).2.2.1
        simp at this
      | none =>
        have htn : s.w.trace = none := htr
        cases q with
        | load x => exact hno ⟨x, rfl⟩
        | _ => simp [handle, htn] at hh
    obtain ⟨r, rfl⟩ := hload
    simp only [handle, Option.some.injEq, Prod.mk.injEq, and_true] at hh
    subst hh
    refine ⟨⟨r, ?_, ?_⟩, ?_, ?_, hgood⟩
    · cases r with
      | none => rfl
      | some t0 => exact coherent_load L M s.w t0
    · rw [hin] at hll; exact hll
    · intro hw
      obtain ⟨h1, h2⟩ := hidle hw
      refine ⟨?_, h2⟩
      intro q' hq'; exact h1 q' (by rw [hin]; simp [hq'])
    · intro q' hq'
      obtain ⟨g1, g2⟩ := hwait q' hq'
      refine ⟨g1, ?_⟩
      rcases g2 with ⟨ls, e1, e2, e3⟩ | ⟨e1, _⟩
      · left
        rw [hin] at e1
        cases ls with
        | nil => simp at e1; exact absurd e1.1.symm (g1 r)
        | cons x ls =>
          simp only [List.cons_append, List.cons.injEq] at e1
          exact ⟨ls, e1.2, fun y hy => e2 y (by simp [hy]), e3⟩
      · rw [hin] at e1; cases e1
  | workReply q rest w' r hin hc hh =>
    have hno : ∀ x, q ≠ .load x := by
      rintro x rfl; simp [handle] at hh
    -- so the client is waiting for it, and it is the only thing in the inbox
    have hw : s.waiting = some q ∧ rest = [] ∧ ∀ c, s.out c = [] := by
      cases hw : s.waiting with
      | none =>
        obtain ⟨h1, _⟩ := hidle hw
        obtain ⟨x, hx⟩ := h1 q (by rw [hin]; simp)
        exact absurd hx (hno x)
      | some q' =>
        obtain ⟨g1, g2⟩ := hwait q' hw
        rcases g2 with ⟨ls, e1, e2, e3⟩ | ⟨e1, _⟩
        · rw [hin] at e1
          cases ls with
          | nil => simp at e1; exact ⟨by rw [e1.1], e1.2, e3⟩
          | cons x ls =>
            simp only [List.cons_append, List.cons.injEq] at e1
            obtain ⟨y, hy⟩ := e2 x (by simp)
            rw [← e1.1] at hy
            exact absurd hy (hno y)
        · rw [hin] at e1; cases e1
    obtain ⟨hw, rfl, hout⟩ := hw
    have hl : lastLoad t [q] = t := by
      cases q with
      | load x => exact absurd rfl (hno x)
      | _ => rfl
    rw [hin, hl] at hll
    cases t with
    | none =>
      have htn : s.w.trace = none := htr
      cases q with
      | load x => exact absurd rfl (hno x)
      | _ => simp [handle, htn] at hh
    | some t =>
      obtain ⟨g1, g2, g3, g4⟩ := handle_ok L M t s.w w' htr q (some r) hno hh
      simp only [Option.map_some] at g4
      refine ⟨⟨some t, g1, hll⟩, by simp [hw], ?_, hgood⟩
      intro q' hq'
      have hqq : q = q' := by
        have : s.waiting = some q' := hq'
        rw [hw] at this; exact Option.some.inj this
      subst hqq
      refine ⟨hno, Or.inr ⟨rfl, r, t, hll.symm, g2.symm, g4.symm, ?_⟩⟩
      intro c
      simp only [hout, List.nil_append]
  | crash q rest hin hc hh => exact ⟨⟨t, htr, hll⟩, hidle, hwait, hgood⟩
  | fetch q c r rest hw hc ho =>
    obtain ⟨g1, g2⟩ := hwait q hw
    rcases g2 with ⟨ls, e1, e2, e3⟩ | ⟨e1, r', t', e2, e3, e4, e5⟩
    · rw [e3 c] at ho; cases ho
    · rw [hc] at e4
      simp only [Option.some.injEq] at e4
      subst e4
      have ho' := ho
      rw [e5] at ho'
      simp only [if_true, List.cons.injEq] at ho'
      obtain ⟨rfl, rfl⟩ := ho'
      refine ⟨⟨t, htr, hll⟩, ?_, by simp, ?_⟩
      · intro _
        refine ⟨by rw [e1]; intro q hq; simp at hq, ?_⟩
        intro c'
        simp only
        split_ifs with h'
        · rfl
        · rw [e5, if_neg h']
      · intro e he
        simp only [List.mem_cons] at he
        rcases he with rfl | he
        · exact ⟨t', e2, e3⟩
        · exact hgood e he

theorem sys_inv (L : E.Laws) (M : Metrics) {s : Sys E} (h : s.Reach M) : s.Inv L M := by
  induction h with
  | init =>
    refine ⟨⟨none, rfl, rfl⟩, ?_, by simp [Sys.init], by simp [Sys.init]⟩
    intro _; exact ⟨by intro q hq; simp [Sys.init] at hq, fun _ => rfl⟩
  | step _ hs ih => exact sys_step L M ih hs

/-- **C41.** In every execution, every reply the client ever got is the one a computation from scratch on
the trace it had asked to be loaded last gives for its request: other traces, other widths, earlier
queries and cached results never show. -/
theorem c41_replies_are_fresh (L : E.Laws) (M : Metrics) {s : Sys E} (h : s.Reach M) :
    ∀ loaded q r, (loaded, q, r) ∈ s.log → ∃ t, loaded = some t ∧ freshReply L M t q = some r := by
  intro loaded q r hm
  exact (sys_inv L M h).good (loaded, q, r) hm

/-- **C41 (right channel, nothing left behind).** Whenever the client is not waiting, no reply is in
flight on any channel; whenever it is waiting, at most one is, on the channel it listens to. -/
theorem c41_channels_in_step (L : E.Laws) (M : Metrics) {s : Sys E} (h : s.Reach M) :
    (s.waiting = none → ∀ c, s.out c = []) ∧
    (∀ q, s.waiting = some q → ∀ c, s.out c ≠ [] → q.chan = some c ∧ (s.out c).length = 1) := by
  have hi := sys_inv L M h
  refine ⟨fun hw => (hi.idle hw).2, ?_⟩
  intro q hq c hc
  rcases (hi.wait q hq).2 with ⟨ls, _, _, e3⟩ | ⟨_, r, t, _, _, e4, e5⟩
  · exact absurd (e3 c) hc
  · rw [e5] at hc ⊢
    by_cases e : c = r.chan
    · subst e; simp [e4]
    · simp [e] at hc

/-- **C41 (no lost wake-up).** A waiting client always gets an answer: the worker still has its request, or
the reply is in the channel, or the worker panicked (on which the client panics too). -/
theorem c41_never_stuck (L : E.Laws) (M : Metrics) {s : Sys E} (h : s.Reach M) (q : Req E) (hq : s.waiting = some q) :
    s.crashed = true ∨ (∃ s', Sys.Step M s s') := by
  have hi := sys_inv L M h
  cases hc : s.crashed with
  | true => exact Or.inl rfl
  | false =>
    right
    rcases (hi.wait q hq).2 with ⟨ls, e1, _, _⟩ | ⟨_, r, t, _, _, e4, e5⟩
    · have : ∃ x rest, s.inbox = x :: rest := by
        rw [e1]; cases ls with
        | nil => exact ⟨q, [], rfl⟩
        | cons x ls => exact ⟨x, ls ++ [q], rfl⟩
      obtain ⟨x, rest, hx⟩ := this
      cases hh : handle M s.w x with
      | none => exact ⟨_, .crash s x rest hx hc hh⟩
      | some p =>
        obtain ⟨w', r⟩ := p
        cases r with
        | none => exact ⟨_, .work s x rest w' hx hc hh⟩
        | some r => exact ⟨_, .workReply s x rest w' r hx hc hh⟩
    · exact ⟨_, .fetch s q r.chan r [] hq e4 (by rw [e5]; simp)⟩

/-! ## The processing thread does not panic -/

/-- `id` designates an activity of trace `t0` whose argument can be parsed whatever was parsed before
(which excludes running out of interner keys, see C14), to something displayable (see C35). -/
structure Describable (L : E.Laws) (t0 : E.T) (id : E.Id) : Prop where
  parse : ∀ t, L.Ext t0 t → (E.parse t id).isSome = true
  name : (E.name t0 id).isSome = true
  wf : ∀ v, L.value t0 id = some v → v.WF

theorem single_no_wrap (M : Metrics) (name : Text) (v : Arg) (n : Nat) (p : Text × Bool)
    (h : finishDesc (displayActivityDesc M name v (.singleLine n)) = some p) : p.2 = false := by
  simp only [displayActivityDesc] at h
  split_ifs at h
  · simp [finishDesc] at h; rw [← h]
  · simp [finishDesc] at h; rw [← h]
  · split at h
    · simp [finishDesc] at h
    · simp [finishDesc] at h; rw [← h]

theorem desc_total (M : Metrics) (name : Text) (v : Arg) (hv : v.WF) (cfg : Config) (hcfg : ∀ n, cfg = .singleLine n → n < 65536) :
    (finishDesc (displayActivityDesc M name v cfg)).isSome = true := by
  cases cfg with
  | singleLine n =>
    obtain ⟨h1, h2⟩ := displayActivityDesc_single M name v n hv (hcfg n rfl)
    by_cases hc : M.width name + (if v.isNothing then 0 else 3) > n
    · rw [h1 hc]; rfl
    · obtain ⟨t, ht, _⟩ := h2 (by omega)
      rw [ht]; rfl
  | multiLine a b c =>
    obtain ⟨h1, h2⟩ := displayActivityDesc_multi M name v a b c
    cases v with
    | nothing => rw [h1 rfl]; rfl
    | unnamedLoop => rw [h2 _ .unnamedLoop]; rfl
    | module => rw [h2 _ .module]; rfl
    | str s => rw [h2 _ (.str s)]; rfl
    | path c => rw [h2 _ (.path c)]; rfl
    | entity x y z => rw [h2 _ (.entity x y z)]; rfl

theorem describeActivity_total (L : E.Laws) (M : Metrics) (t0 t : E.T) (args : E.Id → Option E.A) (h : ArgsOk L t0 t args)
    (id : E.Id) (hid : Describable L t0 id) (cfg : Config) (hcfg : ∀ n, cfg = .singleLine n → n < 65536) :
    ∃ p, describeActivity M t args id cfg = some p ∧ (∀ n, cfg = .singleLine n → p.2.2.2 = false) := by
  have key : ∀ (t1 : E.T) (args1 : E.Id → Option E.A) (a : E.A), L.Ext t0 t1 →
      (∃ v, L.value t0 id = some v ∧ E.resolve t1 a = some v) →
      ∃ p, (do
        let name ← E.name t1 id
        let v ← E.resolve t1 a
        let (text, wrap) ← finishDesc (displayActivityDesc M name v cfg)
        some (t1, args1, text, wrap)) = some p ∧ (∀ n, cfg = .singleLine n → p.2.2.2 = false) := by
    intro t1 args1 a hext ⟨v, hv1, hv2⟩
    obtain ⟨name, hn⟩ := Option.isSome_iff_exists.1 hid.name
    obtain ⟨q, hq⟩ := Option.isSome_iff_exists.1 (desc_total M name v (hid.wf v hv1) cfg hcfg)
    rw [L.name_ext hext, hn, hv2]
    simp only [Option.bind_eq_bind, Option.bind_some, hq]
    refine ⟨_, rfl, ?_⟩
    rintro n rfl
    exact single_no_wrap M name v n q hq
  unfold describeActivity
  cases ha : args id with
  | some a => exact key t args a h.1 (h.2 id a ha)
  | none =>
    obtain ⟨⟨t1, a⟩, hp⟩ := Option.isSome_iff_exists.1 (hid.parse t h.1)
    simp only [hp, Option.bind_eq_bind, Option.bind_some]
    obtain ⟨hext, v, hv1, hv2⟩ := L.parse_ext hp
    exact key t1 (put args id a) a (L.trans h.1 hext) ⟨v, by rw [← L.value_ext h.1]; exact hv1, hv2⟩

theorem describeActivities_total (L : E.Laws) (M : Metrics) (t0 : E.T) (n : Nat) (hn : n < 65536) (ids : List E.Id)
    (hids : ∀ id ∈ ids, Describable L t0 id) :
    ∀ (t : E.T) (args : E.Id → Option E.A) (descs : E.Id → Option Text), ArgsOk L t0 t args →
      (describeActivities M n t args descs ids).isSome = true := by
  induction ids with
  | nil => intro t args descs _; rfl
  | cons id ids ih =>
    intro t args descs h
    unfold describeActivities
    have ih' := ih (fun i hi => hids i (by simp [hi]))
    have key : ∀ (t1 : E.T) (args1 : E.Id → Option E.A) (descs1 : E.Id → Option Text) (d : Text), ArgsOk L t0 t1 args1 →
        (do
          let (t, args, descs, ds) ← describeActivities M n t1 args1 descs1 ids
          some (t, args, descs, d :: ds)).isSome = true := by
      intro t1 args1 descs1 d h1
      obtain ⟨p, hp⟩ := Option.isSome_iff_exists.1 (ih' t1 args1 descs1 h1)
      rw [hp]; rfl
    cases hc : descs id with
    | some d => exact key t args descs d h
    | none =>
      obtain ⟨⟨t1, args1, d, wrap⟩, hp, hw⟩ := describeActivity_total L M t0 t args h id (hids id (by simp)) (.singleLine n)
        (by rintro m hm; cases hm; exact hn)
      have hw' : wrap = false := hw n rfl
      subst hw'
      have hok := (describeActivity_ok L M t0 t args h id _ _ _ _ _ hp).1
      simp only [hp, Option.bind_eq_bind, Option.bind_some, Bool.false_eq_true, if_false]
      exact key t1 args1 (put descs id d) d hok

/-- **C41 (no panic).** On a loaded trace, describing activities never makes the processing thread panic,
whatever it did before: in particular single-line descriptions never ask to be wrapped. -/
theorem c41_describe_no_panic (L : E.Laws) (M : Metrics) (t0 : E.T) (w : W E) (h : Coherent L M t0 w) (n : Nat) (hn : n < 65536) :
    (∀ ids : List E.Id, (∀ id ∈ ids, Describable L t0 id) → (handle M w (.describeActivities ids n)).isSome = true) ∧
    (∀ id : E.Id, Describable L t0 id → (handle M w (.describeActivity id n)).isSome = true) := by
  obtain ⟨⟨t, ht, hext, hargs⟩, hdescs⟩ := h
  constructor
  · intro ids hids
    simp only [handle, ht, Option.bind_eq_bind, Option.bind_some]
    obtain ⟨p, hp⟩ := Option.isSome_iff_exists.1 (describeActivities_total L M t0 n hn ids hids t w.args
      (if n ≠ w.lastMaxCols then (fun _ => none) else w.descs) ⟨hext, hargs⟩)
    rw [hp]; rfl
  · intro id hid
    simp only [handle, ht, Option.bind_eq_bind, Option.bind_some]
    obtain ⟨p, hp, _⟩ := describeActivity_total L M t0 t w.args ⟨hext, hargs⟩ id hid (.multiLine n 0 0) (by simp)
    rw [hp]; rfl

/-- **C41 (before any load).** Asking anything before a trace was loaded, or after a load failed, makes the
processing thread panic. -/
theorem c41_panics_without_trace (M : Metrics) (w : W E) (h : w.trace = none) (q : Req E) (hq : ∀ x, q ≠ .load x) :
    handle M w q = none := by
  cases q with
  | load x => exact absurd rfl (hq x)
  | _ => simp [handle, h]

theorem mapM_get {α β : Type} {f : α → Option β} {l : List α} {m : List β} (h : l.mapM f = some m) :
    m.length = l.length ∧ ∀ (i : Nat) a, l[i]? = some a → ∃ b, m[i]? = some b ∧ f a = some b := by
  induction l generalizing m with
  | nil => simp at h; subst h; simp
  | cons x l ih =>
    simp only [List.mapM_cons, Option.bind_eq_bind, Option.pure_def] at h
    obtain ⟨y, hy, h⟩ := Option.bind_eq_some_iff.1 h
    obtain ⟨ys, hys, h⟩ := Option.bind_eq_some_iff.1 h
    cases h
    obtain ⟨h1, h2⟩ := ih hys
    refine ⟨by simp [h1], ?_⟩
    intro i a ha
    cases i with
    | zero => simp at ha; subst ha; exact ⟨y, rfl, hy⟩
    | succ i => simp at ha; simpa using h2 i a ha

/-- **C41 (descriptions).** The replies to a request for descriptions of activities in `n` columns have one text per activity, in
the order of the request. It fits in `n` columns and starts with the name of the activity, unless `n` columns do not suffice for the
name, two brackets and one more character: it then is an ellipsis. -/
theorem c41_descriptions (L : E.Laws) (M : Metrics) {s : Sys E} (h : s.Reach M) {t : E.T} {ids : List E.Id} {n : Nat} {r : Reply E}
    (hm : (some t, .describeActivities ids n, r) ∈ s.log) (hn : n < 65536) (hids : ∀ id ∈ ids, Describable L t id) :
    ∃ ds, r = .descs ds ∧ ds.length = ids.length ∧ ∀ (i : Nat) id, ids[i]? = some id →
      ∃ d name v, ds[i]? = some d ∧ E.name t id = some name ∧ L.value t id = some v ∧
        (n < M.width name + (if v.isNothing then 0 else 3) → d = [['…']]) ∧
        (M.width name + (if v.isNothing then 0 else 3) ≤ n → M.width d ≤ n ∧ name <+: d ∧ (v.isNothing = true → d = name)) := by
  obtain ⟨t', ht', hf⟩ := c41_replies_are_fresh L M h _ _ _ hm
  cases ht'
  simp only [freshReply] at hf
  obtain ⟨ds, hds, rfl⟩ := Option.map_eq_some_iff.1 hf
  obtain ⟨hlen, hget⟩ := mapM_get hds
  refine ⟨ds, rfl, hlen, ?_⟩
  intro i id hi
  obtain ⟨d, hd, hfd⟩ := hget i id hi
  obtain ⟨p, hp, hpd⟩ := Option.map_eq_some_iff.1 hfd
  unfold freshDesc at hp
  obtain ⟨v, hv, hp⟩ := Option.bind_eq_some_iff.1 hp
  obtain ⟨name, hname, hp⟩ := Option.bind_eq_some_iff.1 hp
  refine ⟨d, name, v, hd, hname, hv, ?_⟩
  obtain ⟨h1, h2⟩ := displayActivityDesc_single M name v n ((hids id (List.mem_of_getElem? hi)).wf v hv) hn
  refine ⟨fun hc => ?_, fun hc => ?_⟩
  · rw [h1 hc] at hp
    cases hp
    exact hpd.symm
  · obtain ⟨text, ht, hw, hno, hyes⟩ := h2 hc
    rw [ht] at hp
    cases hp
    have hpd : text = d := hpd
    subst hpd
    refine ⟨hw, ?_, hno⟩
    cases hb : v.isNothing with
    | true => rw [hno hb]
    | false =>
      obtain ⟨a, _, ha⟩ := hyes hb
      rw [ha, List.append_assoc, List.append_assoc]
      exact List.prefix_append _ _

/-! ## A concrete engine: arguments are strings, interned when parsed -/

open Verif.Intern (Interner)

/-- Names and arguments of the activities, and a string interner (C14). -/
structure DemoTrace where
  acts : List (Text × Option Text)
  strings : Interner Text
  wf : strings.WF

/-- Parsing interns the argument and keeps its key. -/
def demoParse (t : DemoTrace) (id : Nat) : Option (DemoTrace × Option Nat) :=
  match t.acts[id]? with
  | none => none
  | some (_, none) => some (t, none)
  | some (_, some s) =>
    match h : t.strings.intern 1000 s with
    | .error _ => none
    | .ok (k, i) => some (⟨t.acts, i, by
        rcases Interner.intern_spec (cap := 1000) t.wf s with ⟨_, k', hk, _⟩ | ⟨_, _, i', hk, _, hwf⟩ | ⟨_, _, hk⟩
        · rw [h] at hk; cases hk; exact t.wf
        · rw [h] at hk; cases hk; exact hwf
        · rw [h] at hk; cases hk⟩, some k)

/-- The engine. -/
abbrev demo : Engine where
  T := DemoTrace
  Id := Nat
  A := Option Nat
  I := Nat
  parse := demoParse
  resolve := fun t a => match a with
    | none => some .nothing
    | some k => (t.strings.get k).map .str
  name := fun t id => t.acts[id]?.map Prod.fst
  query := fun t _ => some t.acts.length
  describe := fun t n => some (lit "trace")

/-- It satisfies the laws, because interner keys stay valid. -/
def demoLaws : demo.Laws where
  Ext := fun t t' => t'.acts = t.acts ∧ t.strings.items <+: t'.strings.items ∧
    ∀ s ∈ t'.strings.items, s ∈ t.strings.items ∨ some s ∈ t.acts.map Prod.snd
  refl := fun t => ⟨rfl, List.prefix_rfl, fun s h => Or.inl h⟩
  trans := fun {a b c} h h' => ⟨h'.1.trans h.1, h.2.1.trans h'.2.1, fun s hs => by
    rcases h'.2.2 s hs with h1 | h1
    · exact h.2.2 s h1
    · right; rw [← h.1]; exact h1⟩
  value := fun t id => t.acts[id]?.map fun p => match p.2 with
    | none => .nothing
    | some s => .str s
  parse_ext := by
    intro t id t' a h
    change demoParse t id = some (t', a) at h
    unfold demoParse at h
    split at h
    · cases h
    · next hx => cases h; exact ⟨⟨rfl, List.prefix_rfl, fun s h => Or.inl h⟩, .nothing, by simp [hx], rfl⟩
    · next s hx =>
      split at h
      · cases h
      · next k i hk =>
        cases h
        rcases Interner.intern_spec (cap := 1000) t.wf s with ⟨_, k', hk', hi⟩ | ⟨_, _, i', hk', hi, _⟩ | ⟨_, _, hk'⟩
        · rw [hk] at hk'; cases hk'
          exact ⟨⟨rfl, List.prefix_rfl, fun s h => Or.inl h⟩, .str s, by simp [hx], by simp [demo, Interner.get, hi]⟩
        · rw [hk] at hk'; cases hk'
          refine ⟨⟨rfl, by simp [hi], ?_⟩, .str s, by simp [hx], by simp [demo, Interner.get, hi]⟩
          intro x hm
          rw [hi] at hm
          simp only [List.mem_append, List.mem_singleton] at hm
          rcases hm with hm | rfl
          · exact Or.inl hm
          · right
            obtain ⟨hlt, he⟩ := List.getElem?_eq_some_iff.1 hx
            exact List.mem_map.2 ⟨_, List.getElem_mem hlt, by rw [he]⟩
        · rw [hk] at hk'; cases hk'
  value_ext := by intro t t' h; funext id; simp only [h.1]
  resolve_ext := by
    intro t t' a v h hr
    cases a with
    | none => exact hr
    | some k =>
      simp only [demo, Interner.get] at hr ⊢
      cases hg : t.strings.items[k]? with
      | none => rw [hg] at hr; simp at hr
      | some s =>
        rw [hg] at hr
        have : t'.strings.items[k]? = some s := by
          obtain ⟨l, hl⟩ := h.2.1
          rw [← hl]
          obtain ⟨hk, _⟩ := List.getElem?_eq_some_iff.1 hg
          rw [List.getElem?_append_left hk, hg]
        rw [this]; exact hr
  name_ext := by intro t t' h; funext id; simp only [demo, h.1]
  query_ext := by intro t t' h; funext q; simp only [demo, h.1]
  describe_ext := by intro t t' h; rfl

/-- A trace with two activities. -/
def demoTrace : DemoTrace := ⟨[(lit "Source", some (lit "a.h")), (lit "Frontend", none)], Interner.new, Interner.WF.new⟩

/-- A client that loads the trace and asks for both descriptions gets them: the log of
`c41_replies_are_fresh` is not empty, and `freshReply` is what one expects. -/
theorem demo_fresh : (freshReply demoLaws .unit demoTrace (.describeActivities [0, 1, 0] 40)) =
    some (.descs [lit "Source(a.h)", lit "Frontend", lit "Source(a.h)"]) := by
  with_unfolding_all rfl

/-- Its activities can always be described: meets the hypotheses of `c41_describe_no_panic`. -/
theorem demo_describable (id : Nat) (hid : id < 2) : Describable demoLaws demoTrace id := by
  have hcase : id = 0 ∨ id = 1 := by omega
  refine ⟨?_, ?_, ?_⟩
  · intro t ht
    obtain ⟨h1, h2, h3⟩ := ht
    change (demoParse t id).isSome = true
    unfold demoParse
    rw [h1]
    rcases hcase with rfl | rfl
    · have hlen : t.strings.items.length < 1000 := by
        have hsub : t.strings.items ⊆ [lit "a.h"] := by
          intro x hx
          rcases h3 x hx with h | h
          · simp [demoTrace, Interner.new] at h
          · simpa [demoTrace] using h
        have := (t.wf.nodup.subperm hsub).length_le
        simp at this; omega
      split
      · next h => simp [demoTrace] at h
      · rfl
      · next s hs =>
        split
        · next e he =>
          exfalso
          rcases Interner.intern_spec (cap := 1000) t.wf s with ⟨_, k', hk', hi⟩ | ⟨_, _, i', hk', hi, _⟩ | ⟨_, hc, hk'⟩
          · rw [he] at hk'; cases hk'
          · rw [he] at hk'; cases hk'
          · exact hc hlen
        · rfl
    · rfl
  · rcases hcase with rfl | rfl <;> rfl
  · intro v hv
    rcases hcase with rfl | rfl
    · have : v = .str (lit "a.h") := by
        have h' : demoLaws.value demoTrace 0 = some (.str (lit "a.h")) := rfl
        rw [h'] at hv; exact (Option.some.inj hv).symm
      subst this; exact trivial
    · have : v = .nothing := by
        have h' : demoLaws.value demoTrace 1 = some .nothing := rfl
        rw [h'] at hv; exact (Option.some.inj hv).symm
      subst this; exact trivial

/-- A request, with a repetition. -/
def demoReq : Req demo := .describeActivities ([0, 1, 0] : List Nat) 40

/-- A complete execution: load, ask, reply. The log of `c41_replies_are_fresh` is not empty. -/
theorem demo_run : ∃ s : Sys demo, s.Reach .unit ∧ s.waiting = none ∧ s.log.length = 1 := by
  have r0 : Sys.Reach .unit (Sys.init : Sys demo) := .init
  have r1 := Sys.Reach.step r0 (.load _ (some demoTrace) rfl)
  have r2 := Sys.Reach.step r1 (.work _ (.load (some demoTrace)) [] _ rfl rfl rfl)
  have r3 := Sys.Reach.step r2 (.ask _ demoReq rfl (by simp [demoReq]))
  have hc : Coherent demoLaws .unit demoTrace ⟨some demoTrace, fun _ => none, fun _ => none, 0⟩ :=
    coherent_load demoLaws .unit W.new demoTrace
  have htot := (c41_describe_no_panic demoLaws .unit demoTrace _ hc 40 (by omega)).1 ([0, 1, 0] : List Nat)
    (by intro id hid; apply demo_describable; simp at hid; omega)
  obtain ⟨⟨w', r⟩, hw⟩ := Option.isSome_iff_exists.1 htot
  obtain ⟨_, _, hr, hch⟩ := handle_ok demoLaws .unit demoTrace _ w' hc _ r (by simp) hw
  obtain ⟨r, rfl⟩ := Option.isSome_iff_exists.1 hr
  simp only [Option.map_some] at hch
  have r4 := Sys.Reach.step r3 (.workReply _ demoReq [] w' r rfl rfl hw)
  have r5 := Sys.Reach.step r4 (.fetch _ demoReq r.chan r [] rfl hch.symm (by simp [Sys.init]))
  exact ⟨_, r5, rfl, rfl⟩

end Verif.Tui.Proc
