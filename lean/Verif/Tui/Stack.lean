/-
C42, C59-C62: the stack of UI layers and the stack of trace profiles.

Models src/ui/tui/init.rs, src/ui/tui/trace/display.rs, src/ui/tui/trace/load.rs,
the UI side of src/ui/tui/trace/measure.rs, of src/ui/tui/build/display.rs and of
src/ui/tui/create.rs.

The Cursive library is modelled by the list of its layers: only the topmost layer receives
its own key bindings (table, buttons), global bindings work in all circumstances, callbacks
sent to the event loop run one at a time between events.
-/
import Mathlib.Data.List.Basic
import Mathlib.Tactic.Common

set_option autoImplicit false
set_option linter.unusedVariables false
set_option linter.unusedSimpArgs false

namespace Verif.Tui.Stack

/-! ## What a trace tells -/

/-- The answers of the processing thread (C41) about the traces that it may load.
`norm`: `percent_norm` of a duration (trace/mod.rs 11-13), `none` when it panics because the
duration is zero. -/
structure Env where
  Trace : Type
  Act : Type
  Norm : Type
  roots : Trace → List Act
  all : Trace → List Act
  direct : Trace → Act → List Act
  allChildren : Trace → Act → List Act
  globalNorm : Trace → Option Norm
  norm : Trace → Act → Option Norm

variable {E : Env}

/-- `ProfileKind` (trace/display.rs 120-130). -/
inductive Kind where
  | hier | flat
  deriving DecidableEq

/-- The other kind of profile (trace/display.rs 345-348). -/
def Kind.other : Kind → Kind
  | .hier => .flat
  | .flat => .hier

/-- `DurationDisplay` and `PercentageReference` (trace/display.rs 636-656). -/
inductive Disp (E : Env) where
  | time
  | global (norm : E.Norm)
  | parent (norm : Option E.Norm)

/-- The closure that gives the activities of the other kind of profile: it asks the
processing thread (load.rs 62, display.rs 446-448) or has kept the list (display.rs 376).
`fetch none`: all activities of the trace. -/
inductive Other (E : Env) where
  | fetch (p : Option E.Act)
  | stored (l : List E.Act)

/-- The view of a profile (make_profile_view, trace/display.rs 304-385): the number in the name
of its table, its kind, how its durations are displayed, its rows, and the other list. -/
structure View (E : Env) where
  id : Nat
  kind : Kind
  disp : Disp E
  items : List E.Act
  other : Other E

/-- Dialogs opened by global shortcuts (init.rs 48-62). A backtrace dialog has captured
`layers_below_profile` and the number of profiles. -/
inductive Global where
  | quit | help
  | backtrace (below n : Nat)
  deriving DecidableEq

/-- A layer of the screen. -/
inductive Layer (E : Env) where
  /-- full-build profile (build/display.rs 100-105) -/
  | build
  /-- trace profile (trace/display.rs 209-219) -/
  | profile (v : View E)
  /-- `Processing time trace...` (load.rs 117), for load number `id` -/
  | loader (id : Nat)
  /-- `Measuring time trace` (measure.rs 141-144) -/
  | measuring
  /-- `CreatePrompt::show` (create.rs 54-85); `exists_`: a trace to fall back on exists -/
  | prompt (exists_ : Bool)
  /-- `Dialog::info` -/
  | info
  /-- global dialog -/
  | global (g : Global)

/-- `ProfileLayer` (trace/display.rs 97-110). `parent = none`: `<profile root>`. -/
structure Prof (E : Env) where
  parent : Option E.Act
  id : Nat
  norm : E.Norm
  kind : Kind

/-- Callbacks that a measurement thread sends to the event loop (measure.rs 162-210). -/
inductive Cb where
  | endMeasure | load | info
  deriving DecidableEq

/-- The screen and the state of the UI (mod.rs 79-110), the loads in progress and the
measurement threads, with the callbacks that they are still going to send.
`thread`: the trace of the processing thread. A load's result is installed when its completion
callback runs. -/
structure UI (E : Env) where
  screen : List (Layer E)
  stack : List (Prof E)
  below : Nat
  noEscape : Bool
  fullBuild : Bool
  gnorm : Option E.Norm
  disp : Option (Disp E)
  thread : Option E.Trace
  /-- loads whose completion callback has not run, with their `canceled` flag -/
  loads : List (Nat × Bool)
  nextLoad : Nat
  threads : List (List Cb)
  quit : Bool

/-! ## Elementary operations -/

/-- `cursive.pop_layer()`. -/
def popLayer (s : UI E) : UI E := { s with screen := s.screen.dropLast }

/-- `cursive.add_layer(l)`. -/
def addLayer (l : Layer E) (s : UI E) : UI E := { s with screen := s.screen ++ [l] }

/-- `while cursive.screen().len() > n { cursive.pop_layer(); }`. -/
def popTo (n : Nat) (s : UI E) : UI E := { s with screen := s.screen.take n }

/-- Norm of the layer when percentages are relative to the parent
(trace/display.rs 268-273, 507-512). -/
def Disp.withNorm (n : E.Norm) : Disp E → Disp E
  | .parent _ => .parent (some n)
  | d => d

/-- The duration display of the next profile: the current one, or percentages of the whole trace
(trace/display.rs 252-265); `none`: a panic. -/
def UI.nextDisp (s : UI E) : Option (Disp E) :=
  match s.disp with
  | some d => some d
  | none => s.gnorm.map .global

/-- `show_profile` and `register_profile` (trace/display.rs 172-297); `none`: a panic, here the
absence of rows to select (329-334), of a global norm (258-262). -/
def showProfile (parent : Option E.Act) (norm : E.Norm) (items : List E.Act) (other : Other E) (kind : Kind)
    (s : UI E) : Option (UI E) := do
  let d ← s.nextDisp
  let d := d.withNorm norm
  let id := s.stack.length
  if items.isEmpty then none else
  some (addLayer (.profile ⟨id, kind, d, items, other⟩)
    { s with disp := some d, stack := s.stack ++ [⟨parent, id, norm, kind⟩] })

/-- Is it the view of table number `id`? -/
def Layer.hasTable (id : Nat) : Layer E → Bool
  | .profile v => v.id == id
  | _ => false

/-- `find_name(table_name)`, then replace the duration columns (trace/display.rs 76-92, 515-522);
`none` if there is no such table. -/
def setDisp (id : Nat) (d : Disp E) : List (Layer E) → Option (List (Layer E))
  | [] => none
  | .profile v :: l => if v.id == id then some (.profile { v with disp := d } :: l) else (setDisp id d l).map (.profile v :: ·)
  | x :: l => (setDisp id d l).map (x :: ·)

/-- `for_each_profile_layer` (trace/display.rs 498-524) as called by `switch_duration_unit`. -/
def setAllDisp (d : Disp E) : List (Prof E) → List (Layer E) → Option (List (Layer E))
  | [], scr => some scr
  | p :: ps, scr => do
    let scr ← setDisp p.id (d.withNorm p.norm) scr
    setAllDisp d ps scr

/-- The next unit (trace/display.rs 43-59); `none`: a panic. -/
def UI.cycle (s : UI E) : Disp E → Option (Disp E)
  | .global _ => some (.parent none)
  | .parent _ => some .time
  | .time => s.gnorm.map .global

/-- `switch_duration_unit` (trace/display.rs 33-93). -/
def switchUnit (s : UI E) : Option (UI E) :=
  if s.stack.isEmpty then some s else
  match s.disp with
  | none => some s
  | some d => do
    let d ← s.cycle d
    let scr ← setAllDisp d s.stack s.screen
    some { s with disp := some d, screen := scr }

/-- `exit_current_layer` (init.rs 70-86). -/
def escape (s : UI E) : UI E :=
  if s.screen.length > 1 then
    if s.noEscape then s
    else if s.screen.length = s.stack.length + s.below then popLayer { s with stack := s.stack.dropLast }
    else popLayer s
  else s

/-- Is it a dialog opened by a global shortcut? -/
def Layer.isGlobal : Layer E → Bool
  | .global _ => true
  | _ => false

/-- `set_global_dialog_callback` (init.rs 30-46). -/
def globalDialog (g : Option Global) (s : UI E) : UI E :=
  if s.screen.any Layer.isGlobal then s else
  match g with
  | none => s
  | some g => addLayer (.global g) s

/-- `help_dialog` (mod.rs 121-158). -/
def helpDialog (s : UI E) : Option Global :=
  if !s.stack.isEmpty then some .help else if s.fullBuild then some .help else none

/-- `backtrace_dialog` (init.rs 89-118). -/
def backtraceDialog (s : UI E) : Option Global :=
  if s.stack.isEmpty then none else some (.backtrace s.below s.stack.length)

/-- Selection of an entry of the backtrace (init.rs 106-112). -/
def jump (below idx : Nat) (s : UI E) : UI E :=
  let s := popTo (idx + 1 + below) s
  { s with stack := s.stack.take (idx + 1) }

/-- `end_wait_for_input` (load.rs 145-154) and `end_measure` (measure.rs 230-239); the frame rate
is not modelled. -/
def endWait (s : UI E) : UI E := popTo s.below { s with noEscape := false }

/-- `show_loader` and `start_wait_for_input` (load.rs 17-121). -/
def showLoader (s : UI E) : UI E :=
  addLayer (.loader s.nextLoad)
    { s with
      below := s.screen.length, noEscape := true
      loads := s.loads ++ [(s.nextLoad, false)], nextLoad := s.nextLoad + 1 }

/-- The `Abort` button of the loading screen (load.rs 103-116). -/
def abortLoad (id : Nat) (s : UI E) : UI E :=
  let s := endWait { s with loads := s.loads.map fun p => if p.1 = id then (p.1, true) else p }
  if s.screen.isEmpty then { s with quit := true } else { s with thread := none }

/-- Completion callback of a load (load.rs 25-64), `r` being the trace unless it could not be
loaded. -/
def loadDone (id : Nat) (r : Option E.Trace) (s : UI E) : Option (UI E) :=
  let canceled := (s.loads.find? (·.1 = id)).any (·.2)
  let s := { s with loads := s.loads.filter (·.1 ≠ id) }
  if canceled then some s else
  let s := endWait { s with thread := r }
  match r with
  | none => some (addLayer .info s)
  | some t => do
    let n ← E.globalNorm t
    showProfile none n (E.roots t) (.fetch none) .hier { s with gnorm := some n, disp := none }

/-- Activities given by the closure of a view, asked to the processing thread; `none` if it has
no trace (C41). -/
def Other.get (s : UI E) : Other E → Option (List E.Act)
  | .stored l => some l
  | .fetch none => s.thread.map E.all
  | .fetch (some a) => s.thread.map (E.allChildren · a)

/-- The `f` shortcut of a profile view (trace/display.rs 343-381). -/
def toggle (v : View E) (s : UI E) : Option (UI E) := do
  let p ← s.stack.getLast?
  let items ← v.other.get s
  let s := popLayer { s with stack := s.stack.dropLast }
  showProfile p.parent p.norm items (.stored v.items) v.kind.other s

/-- Return on a row of a hierarchical profile (`zoom`, trace/display.rs 405-451). The row is
marked with `+`, and only then reacts, when the activity has children. -/
def zoom (a : E.Act) (s : UI E) : Option (UI E) := do
  let t ← s.thread
  if (E.direct t a).isEmpty then some s else do
    let n ← E.norm t a
    showProfile (some a) n (E.direct t a) (.fetch (some a)) .hier s

/-- Sorting a profile (`sort_other_profiles`, trace/display.rs 455-493): only what can panic. -/
def sort (s : UI E) : Option (UI E) :=
  if s.stack.isEmpty then none
  else if s.disp.isNone then none
  else if s.stack.dropLast.all fun p => s.screen.any (Layer.hasTable p.id) then some s else none

/-- Outcomes of `show_wizard` (measure.rs 22-106). -/
inductive Wizard where
  | error
  | prompt (exists_ : Bool)
  | load

/-- Return on a source file of the full-build profile (build/display.rs 72-91). -/
def pick (w : Wizard) (s : UI E) : UI E :=
  match w with
  | .error => addLayer .info s
  | .prompt e => addLayer (.prompt e) s
  | .load => showLoader s

/-- Outcomes of a measurement: the callbacks sent by its thread after the end of clang
(measure.rs 171-210). -/
inductive Outcome where
  | success (backupError : Bool)
  | failure (waitError restoreError : Bool)

/-- The callbacks in question, with the first one (measure.rs 168). -/
def Outcome.cbs : Outcome → List Cb
  | .success e => [.endMeasure, .load] ++ (if e then [.info] else [])
  | .failure e e' => [.endMeasure] ++ (if e then [.info] else []) ++ (if e' then [.info] else [])

/-- Outcomes of `start_measure`: errors, or a thread (measure.rs 109-128). -/
inductive Start where
  | error (two : Bool)
  | started (o : Outcome)

/-- `start_measure` (measure.rs 107-211). The outcome is chosen from the start; its callbacks run
at any later time. -/
def startMeasure (r : Start) (s : UI E) : UI E :=
  match r with
  | .error two => let s := addLayer .info s; if two then addLayer .info s else s
  | .started o => addLayer .measuring
      { s with below := s.screen.length, noEscape := true, threads := s.threads ++ [o.cbs] }

/-- Answer to a prompt (create.rs 54-85, measure.rs 92-101). -/
def reply (create exists_ : Bool) (r : Start) (s : UI E) : UI E :=
  let s := popLayer s
  if create then startMeasure r s else if exists_ then showLoader s else s

/-- A callback of a measurement thread runs. -/
def runCb (c : Cb) (s : UI E) : UI E :=
  match c with
  | .endMeasure => endWait s
  | .load => showLoader s
  | .info => addLayer .info s

/-! ## Transitions -/

/-- What a user can do. -/
inductive Action (E : Env) where
  | esc | quitKey | helpKey | backtraceKey | unitKey
  /-- `Ok` or `No` button of a dialog -/
  | dismiss
  | quitYes
  | jump (idx : Nat)
  | toggle
  | zoom (row : Nat)
  | sort
  | pick (w : Wizard)
  | reply (create : Bool) (r : Start)
  | abortLoad
  /-- sets the flag that tells the measurement thread to kill clang (measure.rs 143) -/
  | abortMeasure

/-- The action, on a given screen; outer `none`: impossible, because the topmost layer has no
such button, row or shortcut; inner `none`: a panic. -/
def perform (a : Action E) (s : UI E) : Option (Option (UI E)) :=
  match a, s.screen.getLast? with
  | .esc, _ => some (some (escape s))
  | .quitKey, _ => some (some (globalDialog (some .quit) s))
  | .helpKey, _ => some (some (globalDialog (helpDialog s) s))
  | .backtraceKey, _ => some (some (globalDialog (backtraceDialog s) s))
  | .unitKey, _ => some (switchUnit s)
  | .dismiss, some .info => some (some (popLayer s))
  | .dismiss, some (.global _) => some (some (popLayer s))
  | .quitYes, some (.global .quit) => some (some { s with quit := true })
  | .jump idx, some (.global (.backtrace below n)) => if idx < n then some (some (jump below idx s)) else none
  | .toggle, some (.profile v) => some (toggle v s)
  | .zoom row, some (.profile v) =>
    match v.kind, v.items[row]? with
    | .hier, some a => some (zoom a s)
    | _, _ => none
  | .sort, some (.profile _) => some (sort s)
  | .pick w, some .build => some (some (pick w s))
  | .reply create r, some (.prompt e) => some (some (reply create e r s))
  | .abortLoad, some (.loader id) => some (some (abortLoad id s))
  | .abortMeasure, some .measuring => some (some s)
  | _, _ => none

/-- No measurement thread is between the end of its measurement and the load of its result
(measure.rs 168 and 178-180). -/
def Quiet (s : UI E) : Prop := ∀ th ∈ s.threads, th.head? ≠ some .load

/-- Executions. In `Step true`, users do not manage to act between the end of a measurement and the
load of its result (both are sent to the event loop by the same thread, with the deletion of
a backup file in between); `Step false` has no such restriction. Loaded traces satisfy `OK`. -/
inductive Step (atomic : Bool) (OK : E.Trace → Prop) : UI E → UI E → Prop where
  | user (s s' : UI E) (a : Action E) (hq : s.quit = false) (h : atomic = true → Quiet s)
      (hp : perform a s = some (some s')) : Step atomic OK s s'
  | loaded (s s' : UI E) (id : Nat) (r : Option E.Trace) (hq : s.quit = false) (h : atomic = true → Quiet s)
      (hid : id ∈ s.loads.map Prod.fst) (hr : ∀ t, r = some t → OK t)
      (hl : loadDone id r s = some s') : Step atomic OK s s'
  | callback (s : UI E) (i : Nat) (c : Cb) (rest : List Cb) (hq : s.quit = false)
      (hi : s.threads[i]? = some (c :: rest)) :
      Step atomic OK s (runCb c { s with threads := s.threads.set i rest })

/-- State before anything is displayed (mod.rs 45-53). -/
def start (fullBuild : Bool) : UI E :=
  ⟨[], [], 0, false, fullBuild, none, none, none, [], 0, [], false⟩

/-- What the program starts with: the loading screen of the trace given on the command line
(mod.rs 57-59), or the full-build profile (build/display.rs 94-106). -/
inductive Init : UI E → Prop where
  | trace : Init (showLoader (start false))
  | build : Init (addLayer .build (start true))

/-- Reachable states. -/
inductive Reach (atomic : Bool) (OK : E.Trace → Prop) : UI E → Prop where
  | init (s : UI E) (h : Init s) : Reach atomic OK s
  | step {s s' : UI E} (h : Reach atomic OK s) (hs : Step atomic OK s s') : Reach atomic OK s'

/-! ## Specification -/

/-- The activities that a profile should list: the profile of the trace (`none`) or of an
activity, in hierarchical or flat form. -/
def content (t : E.Trace) : Option E.Act → Kind → List E.Act
  | none, .hier => E.roots t
  | none, .flat => E.all t
  | some a, .hier => E.direct t a
  | some a, .flat => E.allChildren t a

/-- Percentage norm of the profile of the trace or of an activity. -/
def normOf (t : E.Trace) : Option E.Act → Option E.Norm
  | none => E.globalNorm t
  | some a => E.norm t a

/-- Traces that can be displayed at all: there are activities and the durations that percentages
are relative to are not zero. -/
structure Displayable (t : E.Trace) : Prop where
  roots : E.roots t ≠ []
  all : E.all t ≠ []
  global : (E.globalNorm t).isSome = true
  norm : ∀ a, E.direct t a ≠ [] → (E.norm t a).isSome = true
  children : ∀ a, E.direct t a ≠ [] → E.allChildren t a ≠ []

/-! ## Invariant -/

/-- Layers on which profiles or waiting screens may lie. -/
def BaseL : Layer E → Prop
  | .build | .prompt _ | .info | .global .quit | .global .help => True
  | _ => False

/-- Layers that may lie above profiles or waiting screens. -/
def OverL (s : UI E) : Layer E → Prop
  | .info | .global .quit | .global .help => True
  | .global (.backtrace b n) => b = s.below ∧ n = s.stack.length ∧ s.stack ≠ []
  | _ => False

/-- Callbacks that only display messages. -/
def Inert (th : List Cb) : Prop := ∀ c ∈ th, c = .info

/-- What a measurement thread is going to do. -/
inductive Act : Bool → List Cb → Prop where
  | load (r : List Cb) (h : Inert r) : Act false (.load :: r)
  | fail (r : List Cb) (h : Inert r) : Act true (.endMeasure :: r)
  | ok (r : List Cb) (h : Inert r) : Act true (.endMeasure :: .load :: r)

/-- Exactly one measurement thread is active (`b`: its measurement is not over). -/
def OneActive (b : Bool) (ths : List (List Cb)) : Prop :=
  ∃ (i : Nat) (th : List Cb), ths[i]? = some th ∧ Act b th ∧ ∀ (j : Nat) (th' : List Cb), j ≠ i → ths[j]? = some th' → Inert th'

/-- No measurement thread is. -/
def NoneActive (ths : List (List Cb)) : Prop := ∀ th ∈ ths, Inert th

/-- The view of a profile is the one that its description calls for. -/
structure ViewOk (t : E.Trace) (d : Disp E) (v : View E) (p : Prof E) : Prop where
  id : v.id = p.id
  kind : v.kind = p.kind
  disp : v.disp = d.withNorm p.norm
  items : v.items = content t p.parent v.kind
  other : (v.kind = .hier ∧ v.other = .fetch p.parent) ∨ v.other = .stored (content t p.parent v.kind.other)
  norm : normOf t p.parent = some p.norm
  kids : ∀ a, p.parent = some a → E.direct t a ≠ []

/-- No trace is displayed nor awaited. -/
structure Idle (s : UI E) : Prop where
  esc : s.noEscape = false
  stack : s.stack = []
  screen : ∀ l ∈ s.screen, BaseL l
  loads : ∀ p ∈ s.loads, p.2 = true
  threads : NoneActive s.threads ∨ OneActive false s.threads

/-- A trace is displayed. -/
structure Profiling (OK : E.Trace → Prop) (s : UI E) (base : List (Layer E)) (views : List (View E))
    (ov : List (Layer E)) (t : E.Trace) (d : Disp E) (g : E.Norm) : Prop where
  esc : s.noEscape = false
  screen : s.screen = base ++ views.map .profile ++ ov
  len : base.length = s.below
  base : ∀ l ∈ base, BaseL l
  ov : ∀ l ∈ ov, OverL s l
  ne : views ≠ []
  thread : s.thread = some t
  ok : OK t
  disp : s.disp = some d
  gnorm : s.gnorm = some g
  gnorm' : E.globalNorm t = some g
  dg : ∀ n, d = .global n → n = g
  views : List.Forall₂ (ViewOk t d) views s.stack
  ids : s.stack.map (·.id) = List.range s.stack.length
  flat : ∀ p ∈ s.stack.dropLast, p.kind = .hier
  loads : ∀ p ∈ s.loads, p.2 = true
  threads : NoneActive s.threads

/-- A trace is awaited. -/
structure Busy (s : UI E) (base : List (Layer E)) (b : Layer E) (ov : List (Layer E)) : Prop where
  esc : s.noEscape = true
  stack : s.stack = []
  screen : s.screen = base ++ b :: ov
  len : base.length = s.below
  base : ∀ l ∈ base, BaseL l
  ov : ∀ l ∈ ov, OverL s l
  what : (∃ id, b = .loader id ∧ (∀ p ∈ s.loads, p.2 = true ∨ p.1 = id) ∧ (id, false) ∈ s.loads ∧ NoneActive s.threads) ∨
    (b = .measuring ∧ (∀ p ∈ s.loads, p.2 = true) ∧ OneActive true s.threads)

/-- The invariant. -/
structure Inv (OK : E.Trace → Prop) (s : UI E) : Prop where
  one : s.screen.countP Layer.isGlobal ≤ 1
  nodup : (s.loads.map Prod.fst).Nodup
  next : ∀ p ∈ s.loads, p.1 < s.nextLoad
  phase : Idle s ∨ (∃ base views ov t d g, Profiling OK s base views ov t d g) ∨ ∃ base b ov, Busy s base b ov

end Verif.Tui.Stack
