/-
C82: a run with the non-interactive interface, from the command line to the last line of the report (src/main.rs,
src/ui/stdio.rs).
-/
import Verif.Analysis.Report

set_option autoImplicit false
set_option linter.unusedVariables false
set_option linter.unusedSimpArgs false
set_option linter.unusedSectionVars false

namespace Verif.Analysis.Stdio

open Verif.Display Verif.Tree Verif.Analysis

/-! ## Model -/

/-- `enum UI` (src/main.rs 94-105). -/
inductive Ui where
  | auto | tui | stdio
  deriving DecidableEq

/-- `main` (src/main.rs 107-123): which interface runs. `ttyIn`, `ttyOut`: standard input and output are terminals. -/
def usesTui (ui : Ui) (ttyIn ttyOut : Bool) : Bool :=
  match ui with
  | .auto => ttyIn && ttyOut
  | .tui => true
  | .stdio => false

/-- The column budget (src/ui/stdio.rs 34-37). `term`: the width that `termion::terminal_size` returns, `none` if it
fails (as it does when the output is not a terminal). -/
def columns (term : Option Nat) (maxCols : Nat) : Nat :=
  match term with
  | some width => min width maxCols
  | none => maxCols

/-- Extended numbers: what a quotient of floating-point numbers can be, besides NaN. -/
abbrev Ext (K : Type) := WithBot (WithTop K)

section
variable {K : Type} [Field K] [LinearOrder K] [IsStrictOrderedRing K]

/-- `a < b` on floating-point numbers. -/
def Fl.lt {D : Type} [LinearOrder D] : Fl D → Fl D → Bool
  | .num a, .num b => decide (a < b)
  | _, _ => false

/-- `duration * duration_norm` with `duration_norm = 1.0 / sum` (src/trace.rs 8-11): with a total of zero the norm is
infinite. Simplification: no rounding, and a total of zero is a positive zero. -/
def share (sum : K) : Fl K → Fl (Ext K)
  | .nan => .nan
  | .num d =>
    if sum = 0 then
      if d = 0 then .nan else if 0 < d then .num ⊤ else .num ⊥
    else .num ((d / sum : K) : WithTop K)

/-- A trace as the report uses it. -/
structure Trace (K α : Type) where
  tree : ATree K K α
  name : α → Text
  process : Text
  pid : Option Int
  thread : Option Text
  /-- `beginningOfTime`, in whole microseconds (`as i128`, metadata.rs 52) -/
  origin : Option Int
  /-- the argument of an activity after `force_parse_arg` (src/ui/mod.rs 13-28); `none` if parsing it panics (C50) -/
  arg : Nat → Option Arg

/-- Number and string formatting that is not modelled: `pid {}`, `thread {:?}`, the date in RFC 3339,
`display_profile_info` (src/ui/stdio.rs 306-315; for durations see C33), and the text that announces less important
callees (stdio.rs 231-235). -/
structure Format (K : Type) where
  pid : Int → Text
  thread : Text → Text
  date : Int → Text
  info : K → Fl (Ext K) → Text
  more : Nat → Text

/-- What sorting may choose: the order of types and activities that are equally hot. -/
structure Choice (K : Type) where
  breakdown : List (Text × Fl K)
  hot : (Nat → Fl (Ext K)) → Fl (Ext K) → List Nat → List Nat

/-- One or more lines of the report. -/
inductive Line (K : Type) where
  | blank
  /-- may contain line feeds -/
  | metadata (t : Text)
  | headTypes | headFlat | headTree
  /-- "- name [duration, percent]" -/
  | type (name : Text) (d : Fl K)
  /-- "- ... and n other activity types below ..." -/
  | typesLeft (n : Nat)
  /-- "- activity [duration, percent]" -/
  | flat (t : Text)
  /-- "- ... and n other activities below ..." -/
  | flatLeft (n : Nat)
  | tree (t : Text)

/-- What a function prints, and whether it returns (it panics otherwise). -/
structure Res (K : Type) where
  out : List (Line K)
  ok : Bool

/-- Sequential composition. -/
def Res.andThen (a b : Res K) : Res K :=
  if a.ok then ⟨a.out ++ b.out, b.ok⟩ else a

/-- Years that can be written in RFC 3339: 0000-01-01 to 9999-12-31, in microseconds since 1970 (`.unwrap()` at
metadata.rs 53 and 55; beyond what fits in an `i128` the multiplication at 52 overflows, a panic too in builds that
check this). -/
def dateOk (o : Int) : Bool := decide (-62167219200000000 ≤ o) && decide (o ≤ 253402300799999999)

/-- `metadata` (src/ui/display/metadata.rs 9-60), as modelled for C34, with its dates. -/
def traceMetadata {α : Type} (M : Metrics) (F : Format K) (tr : Trace K α) (cols : Nat) : Option Text :=
  let extras := (tr.pid.map F.pid).toList ++ (tr.thread.map F.thread).toList ++ (tr.origin.map F.date).toList
  match metadata M tr.process extras cols with
  | none => none
  | some text =>
    -- the early return at 17-21
    if M.width (lit "Data from " ++ tr.process) > cols - 1 then some text
    else match tr.origin with
      | some o => if dateOk o then some text else none
      | none => some text

/-- The sum in `duration_norm` (src/trace.rs 9). -/
def rootSum {α : Type} (t : ATree K K α) : K := total (duration t) ((rootActivities t).getD [])

/-- `print_activity_type_profile` (src/ui/stdio.rs 75-94): the loop at 78-93. -/
def typeLines (sum : K) (threshold : Fl (Ext K)) : List (Text × Fl K) → List (Line K)
  | [] => []
  | e :: rest =>
    if Fl.lt (share sum e.2) threshold then [.typesLeft (rest.length + 1)]
    else .type e.1 e.2 :: typeLines sum threshold rest

/-- Self-duration of an activity. -/
def selfFl {α : Type} (t : ATree K K α) (i : Nat) : Fl K := .num ((selfDuration t i).getD 0)
/-- Duration of an activity. -/
def durFl {α : Type} (t : ATree K K α) (i : Nat) : Fl K := .num ((duration t i).getD 0)

/-- Name of an activity. -/
def nameOf {α : Type} (tr : Trace K α) (i : Nat) : Text := ((statOf tr.tree i).map fun s => tr.name s.act).getD []

/-- `force_parse_arg` followed by `display_activity` (src/ui/stdio.rs 110-125 and 176-193). -/
def activityText {α : Type} (M : Metrics) (F : Format K) (tr : Trace K α) (d : Nat → K) (i cols : Nat) : Option Text :=
  match tr.arg i with
  | none => none
  | some a => displayActivity M (nameOf tr i) a (F.info (d i) (share (rootSum tr.tree) (.num (d i)))) cols

/-- The loop of `print_flat_profile` (src/ui/stdio.rs 110-127); `max_cols - 2` (121) overflows on less than two
columns, a panic in builds that check this. -/
def flatLines (line : Nat → Nat → Option Text) (cols : Nat) : List Nat → Res K
  | [] => ⟨[], true⟩
  | i :: rest =>
    if cols < 2 then ⟨[], false⟩
    else match line i (cols - 2) with
      | none => ⟨[], false⟩
      | some t => Res.andThen ⟨[.flat (lit "- " ++ t)], true⟩ (flatLines line cols rest)

/-- `print_flat_profile` (src/ui/stdio.rs 97-136), after its heading. -/
def flatSection {α : Type} (M : Metrics) (F : Format K) (C : Choice K) (tr : Trace K α) (threshold : Fl (Ext K))
    (cols : Nat) : Res K :=
  let all := allActivities tr.tree
  let hottest := C.hot (fun i => share (rootSum tr.tree) (selfFl tr.tree i)) threshold all
  Res.andThen
    (flatLines (activityText M F tr fun i => (selfDuration tr.tree i).getD 0) cols hottest)
    ⟨if hottest.length < all.length then [.flatLeft (all.length - hottest.length)] else [], true⟩

/-! ### Drawing a tree (crate termtree 0.4.1, with the palette of src/ui/stdio.rs 145-152) -/

/-- `enqueue_leaves` of termtree: the children in order, with a mark on the last one. -/
def enqueue (spaces : List Bool) : List PTree → List (Bool × PTree × List Bool)
  | [] => []
  | c :: cs => (cs.isEmpty, c, spaces) :: enqueue spaces cs

/-- One line: the skips, the glyphs of the item, the text. -/
def itemLine (spaces : List Bool) (last : Bool) (text : Text) : Text :=
  spaces.flatMap (fun s => if s then lit " " ++ lit " " else lit "│" ++ lit " ") ++
    (if last then lit "└" else lit "├") ++ lit "─" ++ text

/-- Number of nodes waiting in the queue of termtree. -/
noncomputable def queueSize (q : List (Bool × PTree × List Bool)) : Nat := (q.map fun x => sizeOf x.2.1).sum

theorem enqueue_size (spaces : List Bool) (kids : List PTree) : queueSize (enqueue spaces kids) < sizeOf kids := by
  induction kids with
  | nil => simp [enqueue, queueSize]
  | cons c cs ih =>
    have : queueSize (enqueue spaces (c :: cs)) = sizeOf c + queueSize (enqueue spaces cs) := by
      simp [enqueue, queueSize]
    rw [this]
    simp only [List.cons.sizeOf_spec]
    omega

/-- The loop of `impl Display for Tree`. -/
def drawQueue (q : List (Bool × PTree × List Bool)) : List Text :=
  match q with
  | [] => []
  | (last, .node l text kids, spaces) :: q =>
    itemLine spaces last text :: drawQueue (enqueue (spaces ++ [last]) kids ++ q)
termination_by queueSize q
decreasing_by
  have := enqueue_size (spaces ++ [last]) kids
  simp only [queueSize, List.map_append, List.sum_append, List.map_cons, List.sum_cons, PTree.node.sizeOf_spec] at this ⊢
  omega

/-- `impl Display for Tree`. -/
def draw : PTree → List Text
  | .node l text kids => text :: drawQueue (enqueue [] kids)

/-- `hierarchical_profile_tree` of a loaded trace (src/ui/stdio.rs 166-250): what it needs of it. -/
def profOf {α : Type} (M : Metrics) (F : Format K) (C : Choice K) (tr : Trace K α) (threshold : Fl (Ext K)) : Prof where
  children i := (directChildren tr.tree i).getD []
  hot := C.hot (fun i => share (rootSum tr.tree) (durFl tr.tree i)) threshold
  line := activityText M F tr fun i => (duration tr.tree i).getD 0
  more := F.more

/-- `print_hierarchical_profile` (src/ui/stdio.rs 139-164), after its heading; the assertion at 154. The drawn tree ends
with a line feed, and `println!` adds one. -/
def treeSection {α : Type} (M : Metrics) (F : Format K) (C : Choice K) (tr : Trace K α) (threshold : Fl (Ext K))
    (cols : Nat) : Res K :=
  match rootActivities tr.tree with
  | some [root] =>
    match hierTree M (profOf M F C tr threshold) cols root with
    | some p => ⟨(draw p).map .tree ++ [.blank], true⟩
    | none => ⟨[], false⟩
  | _ => ⟨[], false⟩

/-- The part of `run` that follows loading (src/ui/stdio.rs 48-71). -/
def report {α : Type} (M : Metrics) (F : Format K) (C : Choice K) (tr : Trace K α) (selfThr hierThr : Fl (Ext K))
    (cols : Nat) : Res K :=
  match traceMetadata M F tr cols with
  | none => ⟨[], false⟩
  | some m =>
    Res.andThen ⟨[.blank, .metadata m], true⟩ <|
    Res.andThen ⟨[.blank, .headTypes] ++ typeLines (rootSum tr.tree) selfThr C.breakdown, true⟩ <|
    Res.andThen ⟨[.blank, .headFlat], true⟩ <|
    Res.andThen (flatSection M F C tr selfThr cols) <|
    Res.andThen ⟨[.blank, .headTree], true⟩ <|
    treeSection M F C tr hierThr cols

/-- Messages on standard error. -/
inductive Msg where
  | needsInput | processing | loadFailed
  deriving DecidableEq

/-- `run` (src/ui/stdio.rs 18-72): messages, output, normal end (with status 0, as `main` returns nothing). `input`:
the file to load, if any is given, and what `ClangTrace::from_file` makes of it. -/
def run {α : Type} (M : Metrics) (F : Format K) (C : Choice K) (input : Option (Option (Trace K α))) (term : Option Nat)
    (maxCols : Nat) (selfThr hierThr : Fl (Ext K)) : List Msg × Res K :=
  match input with
  | none => ([.needsInput], ⟨[], true⟩)
  | some none => ([.processing, .loadFailed], ⟨[], true⟩)
  | some (some tr) => ([.processing], report M F C tr selfThr hierThr (columns term maxCols))

/-! ## Specification -/

/-- Nodes of a printed tree from top to bottom, with the way down to them: for each step, whether it leads to a last
child. -/
def nodes (way : List Bool) : PTree → List (List Bool × Text)
  | .node l text kids => (way, text) :: nodesL way kids
where
  nodesL (way : List Bool) : List PTree → List (List Bool × Text)
    | [] => []
    | c :: cs => nodes (way ++ [cs.isEmpty]) c ++ nodesL way cs

/-- How a node is drawn: below an ancestor (or itself) that has further siblings there is a vertical line. -/
def drawn (way : List Bool) (text : Text) : Text :=
  match way.getLast? with
  | none => text
  | some last =>
    (way.dropLast.flatMap fun isLast => if isLast then lit "  " else lit "│ ") ++
      (if last then lit "└─" else lit "├─") ++ text

/-- Days from the first of January of the year 0 to that of year `y` (proleptic Gregorian calendar). -/
def daysTo (y : Nat) : Int := 365 * y + (y + 3) / 4 - (y + 99) / 100 + (y + 399) / 400

/-- A date, in microseconds since 1970, in the years 0 to 9999. -/
def FourDigits (o : Int) : Prop :=
  (daysTo 0 - daysTo 1970) * 86400000000 ≤ o ∧ o < (daysTo 10000 - daysTo 1970) * 86400000000

theorem date_iff (o : Int) : dateOk o = true ↔ FourDigits o := by
  have h0 : daysTo 0 - daysTo 1970 = -719528 := by decide
  have h1 : daysTo 10000 - daysTo 1970 = 2932897 := by decide
  unfold dateOk FourDigits
  rw [h0, h1, Bool.and_eq_true, decide_eq_true_iff, decide_eq_true_iff]
  omega

/-! ## Drawing -/

theorem drawn_item (spaces : List Bool) (last : Bool) (text : Text) :
    drawn (spaces ++ [last]) text = itemLine spaces last text := by
  have h1 : lit "  " = lit " " ++ lit " " := by decide
  have h2 : lit "│ " = lit "│" ++ lit " " := by decide
  have h3 : lit "└─" = lit "└" ++ lit "─" := by decide
  have h4 : lit "├─" = lit "├" ++ lit "─" := by decide
  unfold drawn itemLine
  rw [List.getLast?_concat, List.dropLast_concat, h1, h2, h3, h4]
  cases last <;> simp only [List.append_assoc, if_true, Bool.false_eq_true, if_false]

theorem drawQueue_append (q : List (Bool × PTree × List Bool)) :
    drawQueue q = q.flatMap fun x => (nodes (x.2.2 ++ [x.1]) x.2.1).map fun y => drawn y.1 y.2 := by
  induction q using drawQueue.induct with
  | case1 => simp [drawQueue]
  | case2 last l text kids spaces q ih =>
    rw [drawQueue, ih, List.flatMap_append, List.flatMap_cons]
    simp only [nodes, List.map_cons, List.cons_append, drawn_item]
    congr 2
    generalize spaces ++ [last] = w
    clear ih
    induction kids with
    | nil => rfl
    | cons c cs ihc =>
      simp only [enqueue, List.flatMap_cons, nodes.nodesL, List.map_append, ihc]

theorem draw_nodes (t : PTree) : draw t = (nodes [] t).map fun y => drawn y.1 y.2 := by
  obtain ⟨l, text, kids⟩ := t
  rw [draw, drawQueue_append]
  simp only [nodes, List.map_cons]
  congr 1
  suffices ∀ w, (enqueue w kids).flatMap (fun x => (nodes (x.2.2 ++ [x.1]) x.2.1).map fun y => drawn y.1 y.2)
      = (nodes.nodesL w kids).map fun y => drawn y.1 y.2 from this []
  intro w
  induction kids with
  | nil => rfl
  | cons c cs ihc => simp only [enqueue, List.flatMap_cons, nodes.nodesL, List.map_append, ihc]

/-- A font in which the glyphs of the palette (and blanks) are one column wide, as the code takes for granted. -/
structure Thin (M : Metrics) : Prop where
  branch : M.w ['├'] = 1
  corner : M.w ['└'] = 1
  bar : M.w ['─'] = 1
  vert : M.w ['│'] = 1

theorem drawn_width {M : Metrics} (hM : Thin M) (way : List Bool) (text : Text) :
    M.width (drawn way text) = 2 * way.length + M.width text := by
  rcases List.eq_nil_or_concat way with rfl | ⟨ws, last, rfl⟩
  · simp [drawn]
  · have hsp : M.w [' '] = 1 := M.ascii ' ' (by decide) (by decide)
    have h : ∀ ws : List Bool, M.width (ws.flatMap fun s => if s then lit " " ++ lit " " else lit "│" ++ lit " ")
        = 2 * ws.length := by
      intro ws
      induction ws with
      | nil => rfl
      | cons s ws ih =>
        rw [List.flatMap_cons, Metrics.width_append, ih]
        cases s <;> simp [lit, hM.vert, hsp] <;> omega
    rw [List.concat_eq_append, drawn_item]
    unfold itemLine
    simp only [Metrics.width_append, h, List.length_append, List.length_singleton]
    have h3 : M.width (lit "─") = 1 := by simp [lit, hM.bar]
    have h4 : M.width (if last = true then lit "└" else lit "├") = 1 := by
      cases last <;> simp [lit, hM.branch, hM.corner]
    omega

/-- The nodes listed are those of the tree, each with its depth. -/
theorem nodes_sub (t : PTree) : ∀ (w : List Bool) (x : List Bool × Text), x ∈ nodes w t →
    ∃ k l kids, x.1.length = w.length + k ∧ SubTree t k (.node l x.2 kids) := by
  refine @PTree.rec (fun t => ∀ (w : List Bool) (x : List Bool × Text), x ∈ nodes w t →
      ∃ k l kids, x.1.length = w.length + k ∧ SubTree t k (.node l x.2 kids))
    (fun ts => ∀ (w : List Bool) (x : List Bool × Text), x ∈ nodes.nodesL w ts →
      ∃ c ∈ ts, ∃ k l kids, x.1.length = w.length + 1 + k ∧ SubTree c k (.node l x.2 kids)) ?_ ?_ ?_ t
  · intro l text kids ih w x hx
    simp only [nodes, List.mem_cons] at hx
    rcases hx with rfl | hx
    · exact ⟨0, l, kids, rfl, .root _⟩
    · obtain ⟨c, hc, k, l', kids', h1, h2⟩ := ih w x hx
      exact ⟨k + 1, l', kids', by omega, .kid hc h2⟩
  · intro w x hx
    simp [nodes.nodesL] at hx
  · intro c cs ihc ihcs w x hx
    simp only [nodes.nodesL, List.mem_append] at hx
    rcases hx with hx | hx
    · obtain ⟨k, l, kids, h1, h2⟩ := ihc _ x hx
      exact ⟨c, by simp, k, l, kids, by simpa using h1, h2⟩
    · obtain ⟨c', hc', r⟩ := ihcs w x hx
      exact ⟨c', by simp [hc'], r⟩


/-- Activity `i` is `k` calls below activity `r`, through activities that are hot. -/
inductive CallPath {α : Type} (t : ATree K K α) (hot : Nat → Prop) : Nat → Nat → Nat → Prop
  | refl (r : Nat) : CallPath t hot r 0 r
  | step {r c k i : Nat} : IsChild t r c → hot c → CallPath t hot c k i → CallPath t hot r (k + 1) i

/-- The activities of the hierarchical profile on `cols` columns, with their depths: those reached from the root through
hot activities, as long as columns are left. -/
def InTree {α : Type} (tr : Trace K α) (threshold : Fl (Ext K)) (cols root k i : Nat) : Prop :=
  CallPath tr.tree (fun i => (share (rootSum tr.tree) (durFl tr.tree i)).ge threshold = true) root k i ∧
    (k = 0 ∨ 2 * k < cols)

/-- Sorting chose something. -/
structure Choice.Valid {α : Type} (C : Choice K) (tr : Trace K α) : Prop where
  breakdown : BreakdownOut Fl.add (.num 0) ((treeActs tr.name tr.tree).map fun a => (a.1, .num a.2)) (.ok C.breakdown)
  hot : ∀ metric threshold l, HottestOut l metric threshold (.ok (C.hot metric threshold l))

/-- A trace and a format that make sense: names are visible, paths in arguments are those of files, and numbers take less
than 65536 columns. -/
structure Sensible {α : Type} (M : Metrics) (F : Format K) (tr : Trace K α) : Prop where
  name : ∀ a, 1 ≤ M.width (tr.name a)
  arg : ∀ i a, tr.arg i = some a → a.WF
  info : ∀ d s, M.width (F.info d s) < 65536

/-! ## Proof -/

theorem prof_chain {α : Type} (M : Metrics) (F : Format K) (C : Choice K) (tr : Trace K α) (threshold : Fl (Ext K))
    (r k i : Nat) :
    HotChain (profOf M F C tr threshold) (fun i => (share (rootSum tr.tree) (durFl tr.tree i)).ge threshold) r k i ↔
      CallPath tr.tree (fun i => (share (rootSum tr.tree) (durFl tr.tree i)).ge threshold = true) r k i := by
  have hc : ∀ r c, c ∈ (profOf M F C tr threshold).children r ↔ IsChild tr.tree r c := by
    intro r c
    show c ∈ (directChildren tr.tree r).getD [] ↔ _
    unfold IsChild
    cases directChildren tr.tree r <;> simp
  constructor
  · intro h
    induction h with
    | refl r => exact .refl r
    | step h1 h2 _ ih => exact .step ((hc _ _).1 h1) h2 ih
  · intro h
    induction h with
    | refl r => exact .refl r
    | step h1 h2 _ ih => exact .step ((hc _ _).2 h1) h2 ih

/-- **C82.** The shares are of the sum of the durations of the root activities, which is the time spent in all activities. -/
theorem c82_total {α : Type} {tmin : K} {xs : List (Stat K K α)} {t : ATree K K α} (hl : load tmin xs = .ok t) :
    ∃ roots, rootActivities t = some roots ∧ rootSum t = (roots.map fun i => (duration t i).getD 0).sum ∧
      rootSum t = ((allActivities t).map fun i => (selfDuration t i).getD 0).sum := by
  obtain ⟨roots, hr, h⟩ := c05_root_sum hl
  have e : rootSum t = total (duration t) roots := by rw [rootSum, hr]; rfl
  exact ⟨roots, hr, e, e.trans h⟩

/-- The hierarchical profile is made exactly if all the activities it shows can be displayed. -/
theorem hierTree_some_iff (M : Metrics) (P : Prof) (hotEnough : Nat → Bool)
    (hhot : ∀ l, (P.hot l).Perm (l.filter hotEnough)) (cols : Nat) : ∀ root,
    (∃ t, hierTree M P cols root = some t) ↔
      ∀ k i, HotChain P hotEnough root k i → (k = 0 ∨ 2 * k < cols) → ∃ tx, P.line i (cols - 2 * k) = some tx := by
  induction cols using Nat.strongRecOn with
  | _ cols ih =>
    intro root
    constructor
    · rintro ⟨t, ht⟩ k i hch hk
      obtain ⟨text, htext, hc⟩ := hierTree_cases ht
      cases hch with
      | refl => exact ⟨text, htext⟩
      | step h1 h2 h3 =>
        rename_i c k
        rcases hc with ⟨h, -⟩ | ⟨h, kids, hk2, -⟩
        · omega
        · obtain ⟨s, -, hs⟩ := forall₂_mem_left hk2 ((hhot _).mem_iff.2 (List.mem_filter.2 ⟨h1, h2⟩))
          have := (ih (cols - 2) (by omega) c).1 ⟨s, hs⟩ k i h3 (by omega)
          rwa [show cols - 2 * (k + 1) = cols - 2 - 2 * k by omega]
    · intro h
      rw [hierTree]
      obtain ⟨text, htext⟩ := h 0 root (.refl _) (Or.inl rfl)
      rw [Nat.mul_zero, Nat.sub_zero] at htext
      rw [htext]
      simp only
      split
      · exact ⟨_, rfl⟩
      · rename_i hc
        obtain ⟨kids, hk⟩ := mapM_exists (f := fun c => hierTree M P (cols - 1 - 1) c)
          (l := P.hot (P.children root)) (by
            intro c hcm
            have hm := List.mem_filter.1 ((hhot _).mem_iff.1 hcm)
            refine (ih (cols - 1 - 1) (by omega) c).2 fun k i hch hk => ?_
            have := h (k + 1) i (.step hm.1 hm.2 hch) (by omega)
            rwa [show cols - 2 * (k + 1) = cols - 1 - 1 - 2 * k by omega] at this)
        rw [hk]
        simp only
        split <;> exact ⟨_, rfl⟩

theorem hot_perm {α : Type} {C : Choice K} {tr : Trace K α} (hC : C.Valid tr) (metric : Nat → Fl (Ext K))
    (threshold : Fl (Ext K)) (l : List Nat) :
    (C.hot metric threshold l).Perm (l.filter fun i => (metric i).ge threshold) := by
  obtain ⟨out, h, hp, -⟩ := hottest_spec l metric threshold _ (hC.hot metric threshold l)
  cases h
  exact hp

/-- An activity of the trace can be displayed exactly if its argument can be parsed, and then fits. -/
theorem text_iff {α : Type} {M : Metrics} {F : Format K} {tr : Trace K α} (hs : Sensible M F tr) {tmin : K}
    {xs : List (Stat K K α)} (hl : load tmin xs = .ok tr.tree) (d : Nat → K) {i c : Nat} (hi : i < xs.length)
    (h1 : 1 ≤ c) (h2 : c < 65536) :
    (∀ t, activityText M F tr d i c = some t → M.width t ≤ c) ∧
    ((∃ t, activityText M F tr d i c = some t) ↔ (tr.arg i).isSome = true) := by
  have hn : 1 ≤ M.width (nameOf tr i) := by
    unfold nameOf
    rw [(c01_contents hl).2 i, List.getElem?_eq_getElem hi]
    exact hs.name _
  unfold activityText
  cases ha : tr.arg i with
  | none => exact ⟨fun t h => (nomatch h), by simp⟩
  | some a =>
    obtain ⟨out, ho, hw, -⟩ := displayActivity_spec M (nameOf tr i) a
      (F.info (d i) (share (rootSum tr.tree) (.num (d i)))) c (hs.arg i a ha) h1 h2 hn (hs.info _ _)
    refine ⟨fun t h => ?_, ?_⟩
    · have : some out = some t := by rw [← ho]; exact h
      cases this; exact hw
    · simp only [Option.isSome_some, iff_true]; exact ⟨out, ho⟩

/-- The same for the hierarchical profile. -/
theorem line_iff {α : Type} {M : Metrics} {F : Format K} {tr : Trace K α} (hs : Sensible M F tr) {tmin : K}
    {xs : List (Stat K K α)} (hl : load tmin xs = .ok tr.tree) (C : Choice K) (threshold : Fl (Ext K)) (i c : Nat)
    (hi : i < xs.length) (h1 : 1 ≤ c) (h2 : c < 65536) :
    (∀ t, (profOf M F C tr threshold).line i c = some t → M.width t ≤ c) ∧
    ((∃ t, (profOf M F C tr threshold).line i c = some t) ↔ (tr.arg i).isSome = true) :=
  text_iff hs hl (fun i => (duration tr.tree i).getD 0) hi h1 h2

theorem andThen_ok (a b : Res K) : (a.andThen b).ok = true ↔ a.ok = true ∧ b.ok = true := by
  unfold Res.andThen
  cases h : a.ok <;> simp [h]

theorem andThen_out {a : Res K} (b : Res K) (h : a.ok = true) : (a.andThen b).out = a.out ++ b.out := by
  unfold Res.andThen; rw [if_pos h]

theorem flatLines_ok (line : Nat → Nat → Option Text) (cols : Nat) (l : List Nat) :
    (flatLines (K := K) line cols l).ok = true ↔
      ∀ i ∈ l, 2 ≤ cols ∧ ∃ t, line i (cols - 2) = some t := by
  induction l with
  | nil => simp [flatLines]
  | cons i l ih =>
    simp only [flatLines]
    by_cases hc : cols < 2
    · rw [if_pos hc]
      simp only [Bool.false_eq_true, List.mem_cons, forall_eq_or_imp, false_iff]
      intro h; omega
    · rw [if_neg hc]
      cases hx : line i (cols - 2) with
      | none => simp [hx]
      | some t =>
        simp only [andThen_ok, true_and, ih, List.mem_cons, forall_eq_or_imp, hx, Option.some.injEq, exists_eq',
          and_true]
        exact ⟨fun h => ⟨by omega, h⟩, fun h => h.2⟩

theorem flatLines_out (line : Nat → Nat → Option Text) (cols : Nat) (l : List Nat)
    (h : (flatLines (K := K) line cols l).ok = true) :
    ∃ texts : List Text, (flatLines (K := K) line cols l).out = texts.map .flat ∧
      List.Forall₂ (fun i text => ∃ t, line i (cols - 2) = some t ∧ text = lit "- " ++ t) l texts := by
  induction l with
  | nil => exact ⟨[], rfl, .nil⟩
  | cons i l ih =>
    have h' := (flatLines_ok line cols (i :: l)).1 h
    obtain ⟨h2, t, ht⟩ := h' i (by simp)
    obtain ⟨texts, e1, e2⟩ := ih ((flatLines_ok line cols l).2 fun j hj => h' j (by simp [hj]))
    refine ⟨(lit "- " ++ t) :: texts, ?_, .cons ⟨t, ht, rfl⟩ e2⟩
    simp only [flatLines, if_neg (show ¬ cols < 2 by omega), ht]
    rw [andThen_out _ rfl, e1]
    rfl

theorem metadata_some {α : Type} (M : Metrics) (F : Format K) (tr : Trace K α) (cols : Nat) :
    ((∃ m, traceMetadata M F tr cols = some m) ↔
      1 ≤ cols ∧ (cols < 11 + M.width tr.process ∨ ∀ o, tr.origin = some o → dateOk o = true)) ∧
    ∀ m, traceMetadata M F tr cols = some m → ∀ l ∈ linesOf m, M.width l ≤ cols := by
  have pdf : M.width (lit "Data from ") = 10 := M.width_lit _ (by decide)
  unfold traceMetadata
  simp only
  generalize (tr.pid.map F.pid).toList ++ (tr.thread.map F.thread).toList ++ (tr.origin.map F.date).toList = extras
  by_cases hc : 1 ≤ cols
  · obtain ⟨out, ho, hf⟩ := metadata_fits M tr.process extras cols hc
    rw [ho]
    simp only [Metrics.width_append, pdf]
    by_cases hw : 10 + M.width tr.process > cols - 1
    · rw [if_pos hw]
      refine ⟨⟨fun _ => ⟨hc, Or.inl (by omega)⟩, fun _ => ⟨_, rfl⟩⟩, ?_⟩
      intro m hm; cases hm; exact hf
    · rw [if_neg hw]
      cases hor : tr.origin with
      | none =>
        refine ⟨⟨fun _ => ⟨hc, Or.inr fun o h => by cases h⟩, fun _ => ⟨_, rfl⟩⟩, ?_⟩
        intro m hm; cases hm; exact hf
      | some o =>
        cases hd : dateOk o with
        | true =>
          simp only [hd, if_true]
          refine ⟨⟨fun _ => ⟨hc, Or.inr fun o' h => by cases h; exact hd⟩, fun _ => ⟨_, rfl⟩⟩, ?_⟩
          intro m hm; cases hm; exact hf
        | false =>
          simp only [hd, Bool.false_eq_true, if_false]
          refine ⟨⟨fun ⟨m, h⟩ => (nomatch h), ?_⟩, fun m h => (nomatch h)⟩
          rintro ⟨-, h | h⟩
          · omega
          · have := h o rfl; rw [hd] at this; cases this
  · have : metadata M tr.process extras cols = none := by unfold metadata; rw [if_pos (by omega)]
    rw [this]
    exact ⟨⟨fun ⟨m, h⟩ => (nomatch h), fun h => absurd h.1 hc⟩, fun m h => (nomatch h)⟩

/-- `below` is inherited by smaller durations. -/
theorem below_anti {sum : K} (h0 : 0 ≤ sum) (threshold : Fl (Ext K)) {a b : Fl K} (hab : a.ge b = true)
    (h : Fl.lt (share sum a) threshold = true) : Fl.lt (share sum b) threshold = true := by
  obtain ⟨x, y, rfl, rfl, hyx⟩ := Fl.ge_num hab
  cases threshold with
  | nan => unfold Fl.lt at h; split at h <;> simp_all
  | num thr =>
    by_cases hz : sum = 0
    · simp only [share, hz, if_true] at h ⊢
      by_cases hx : x = 0
      · simp [hx, Fl.lt] at h
      · rw [if_neg hx] at h
        by_cases hp : 0 < x
        · simp [hp, Fl.lt] at h
        · rw [if_neg hp] at h
          have hx' : x < 0 := lt_of_le_of_ne (not_lt.1 hp) hx
          have hy : y < 0 := lt_of_le_of_lt hyx hx'
          rw [if_neg (ne_of_lt hy), if_neg (not_lt.2 hy.le)]
          exact h
    · simp only [share, hz, if_false, Fl.lt, decide_eq_true_eq] at h ⊢
      refine lt_of_le_of_lt ?_ h
      have : y / sum ≤ x / sum := div_le_div_of_nonneg_right hyx h0
      exact_mod_cast this

theorem typeLines_spec {sum : K} (h0 : 0 ≤ sum) (threshold : Fl (Ext K)) (l : List (Text × Fl K))
    (hs : l.Pairwise fun a b => a.2.ge b.2 = true) :
    typeLines sum threshold l =
      (l.filter fun e => !Fl.lt (share sum e.2) threshold).map (fun e => .type e.1 e.2) ++
      (if (l.filter fun e => Fl.lt (share sum e.2) threshold) = [] then []
       else [.typesLeft (l.filter fun e => Fl.lt (share sum e.2) threshold).length]) := by
  induction l with
  | nil => simp [typeLines]
  | cons e l ih =>
    simp only [List.pairwise_cons] at hs
    simp only [typeLines]
    cases h : Fl.lt (share sum e.2) threshold with
    | true =>
      have hall : ∀ x ∈ l, Fl.lt (share sum x.2) threshold = true := fun x hx => below_anti h0 threshold (hs.1 x hx) h
      have h1 : (l.filter fun e => !Fl.lt (share sum e.2) threshold) = [] := by
        rw [List.filter_eq_nil_iff]
        intro x hx
        simp [hall x hx]
      have h2 : (l.filter fun e => Fl.lt (share sum e.2) threshold) = l := by
        rw [List.filter_eq_self]
        exact hall
      simp [h, h1, h2]
    | false =>
      rw [ih hs.2]
      simp only [Bool.false_eq_true, if_false, List.filter_cons, h, Bool.not_false, if_true, List.map_cons, List.cons_append]

theorem tree_ids {α : Type} {t : ATree K K α} {tmin : K} {xs : List (Stat K K α)} (hl : load tmin xs = .ok t)
    {hot : Nat → Prop} {root : Nat} {roots : List Nat} (hr : rootActivities t = some roots) (hm : root ∈ roots) {k i : Nat}
    (h : CallPath t hot root k i) : i < xs.length := by
  obtain ⟨b, roots', hb, rfl⟩ := load_inv hl
  rw [hb.rootActivities] at hr
  cases hr
  have hchild : ∀ p c, IsChild (⟨b.acts, b.children ++ roots, b.children.length⟩ : ATree K K α) p c → c < xs.length := by
    intro p c hpc
    obtain ⟨hp, hc⟩ := (hb.isChild p c).1 hpc
    rw [← hb.length]
    apply hb.ids_lt
    apply List.mem_append_left
    rw [← hb.chFlat]
    exact List.mem_flatMap.2 ⟨p, List.mem_range.2 hp, hc⟩
  have hroot : root < xs.length := by rw [← hb.length]; exact hb.ids_lt _ (by simp [hm])
  clear hm
  revert hroot
  induction h with
  | refl r => exact id
  | step h1 h2 _ ih => intro _; exact ih (hchild _ _ h1)


/-! ## C82 -/

/-- **C82 (which interface).** The non-interactive interface is used exactly if it is asked for, or if none is and
standard input or standard output is not a terminal. -/
theorem c82_interface (ui : Ui) (ttyIn ttyOut : Bool) :
    usesTui ui ttyIn ttyOut = false ↔ ui = .stdio ∨ (ui = .auto ∧ (ttyIn = false ∨ ttyOut = false)) := by
  cases ui <;> cases ttyIn <;> cases ttyOut <;> simp [usesTui]

/-- **C82 (columns).** The width used is the largest one that exceeds neither the number of columns asked for nor the
terminal, if there is one. -/
theorem c82_columns (term : Option Nat) (maxCols n : Nat) :
    n ≤ columns term maxCols ↔ n ≤ maxCols ∧ ∀ w, term = some w → n ≤ w := by
  cases term with
  | none => simp [columns]
  | some w => simp [columns, and_comm]

/-- **C82 (no report).** Without a file, or with a file that cannot be loaded, nothing is written to standard output, the
last message tells why, and the program ends normally (*defect*: with status 0, as if it had succeeded). -/
theorem c82_no_report {α : Type} (M : Metrics) (F : Format K) (C : Choice K) (term : Option Nat) (maxCols : Nat)
    (selfThr hierThr : Fl (Ext K)) :
    run M F C (none : Option (Option (Trace K α))) term maxCols selfThr hierThr = ([.needsInput], ⟨[], true⟩) ∧
    run M F C (some (none : Option (Trace K α))) term maxCols selfThr hierThr = ([.processing, .loadFailed], ⟨[], true⟩) :=
  ⟨rfl, rfl⟩

/-- **C82 (when the report is complete).** For every loaded trace: the report is printed to its end exactly if
* there is at least one column, and at least three if some activity belongs to the flat profile,
* the trace was not recorded in a year that has not four digits (or the first line has no room for the process name),
* the trace has exactly one root activity, and
* the arguments of all activities that are shown can be parsed without a panic (C50).
Otherwise the program panics. -/
theorem c82_completes {α : Type} (M : Metrics) (F : Format K) (C : Choice K) (tr : Trace K α) (hC : C.Valid tr)
    (hs : Sensible M F tr) {tmin : K} {xs : List (Stat K K α)} (hl : load tmin xs = .ok tr.tree)
    (term : Option Nat) (maxCols : Nat) (hu : maxCols < 65536) (selfThr hierThr : Fl (Ext K)) :
    let cols := columns term maxCols
    let inFlat := fun i => i < xs.length ∧ (share (rootSum tr.tree) (selfFl tr.tree i)).ge selfThr = true
    (run M F C (some (some tr)) term maxCols selfThr hierThr).2.ok = true ↔
      1 ≤ cols ∧ ((∃ i, inFlat i) → 3 ≤ cols) ∧
      (cols < 11 + M.width tr.process ∨ ∀ o, tr.origin = some o → FourDigits o) ∧
      ∃ root, rootActivities tr.tree = some [root] ∧
        (∀ i, inFlat i → (tr.arg i).isSome = true) ∧
        (∀ k i, InTree tr hierThr cols root k i → (tr.arg i).isSome = true) := by
  intro cols inFlat
  simp only [← date_iff]
  have hcu : cols < 65536 := by
    have := (c82_columns term maxCols cols).1 (Nat.le_refl _); omega
  show (report M F C tr selfThr hierThr cols).ok = true ↔ _
  have hall : allActivities tr.tree = List.range xs.length := (c01_contents hl).1
  have hmem : ∀ i, i ∈ C.hot (fun i => share (rootSum tr.tree) (selfFl tr.tree i)) selfThr (allActivities tr.tree)
      ↔ inFlat i := by
    intro i
    rw [(hot_perm hC _ _ _).mem_iff, List.mem_filter, hall, List.mem_range]
  have hflat : (flatSection M F C tr selfThr cols).ok = true ↔
      ((∃ i, inFlat i) → 3 ≤ cols) ∧ ∀ i, inFlat i → (tr.arg i).isSome = true := by
    unfold flatSection
    simp only [andThen_ok, and_true, flatLines_ok]
    constructor
    · intro h
      have key : ∀ i, inFlat i → 3 ≤ cols ∧ (tr.arg i).isSome = true := by
        intro i hi
        obtain ⟨h2, t, ht⟩ := h i ((hmem i).2 hi)
        by_cases h3 : 3 ≤ cols
        · exact ⟨h3, (text_iff hs hl _ hi.1 (by omega) (by omega)).2.1 ⟨t, ht⟩⟩
        · have : cols - 2 = 0 := by omega
          rw [this] at ht
          unfold activityText at ht
          split at ht
          · cases ht
          · unfold displayActivity at ht; rw [if_pos (by omega)] at ht; cases ht
      exact ⟨fun ⟨i, hi⟩ => (key i hi).1, fun i hi => (key i hi).2⟩
    · rintro ⟨h3, ha⟩ i hi
      have hi := (hmem i).1 hi
      have h3 := h3 ⟨i, hi⟩
      exact ⟨by omega, (text_iff hs hl _ hi.1 (by omega) (by omega)).2.2 (ha i hi)⟩
  have htree : 1 ≤ cols → ((treeSection M F C tr hierThr cols).ok = true ↔
      ∃ root, rootActivities tr.tree = some [root] ∧
        ∀ k i, InTree tr hierThr cols root k i → (tr.arg i).isSome = true) := by
    intro h1
    unfold treeSection
    split
    · rename_i root hroot
      have hiff := hierTree_some_iff M (profOf M F C tr hierThr)
        (fun i => (share (rootSum tr.tree) (durFl tr.tree i)).ge hierThr) (fun l => hot_perm hC _ _ l) cols root
      have hline : (∃ p, hierTree M (profOf M F C tr hierThr) cols root = some p) ↔
          ∀ k i, InTree tr hierThr cols root k i → (tr.arg i).isSome = true := by
        rw [hiff]
        constructor
        · rintro h k i ⟨hch, hk⟩
          have hi := tree_ids hl hroot (by simp) hch
          exact (line_iff hs hl C hierThr i (cols - 2 * k) hi (by omega) (by omega)).2.1 (h k i ((prof_chain M F C tr hierThr _ _ _).2 hch) hk)
        · intro h k i hch hk
          have hch' := (prof_chain M F C tr hierThr _ _ _).1 hch
          have hi := tree_ids hl hroot (by simp) hch'
          exact (line_iff hs hl C hierThr i (cols - 2 * k) hi (by omega) (by omega)).2.2 (h k i ⟨hch', hk⟩)
      rw [hroot]
      simp only [Option.some.injEq, List.cons.injEq, and_true, exists_eq_left', ← hline]
      cases hp : hierTree M (profOf M F C tr hierThr) cols root with
      | none => simp
      | some p => simp
    · rename_i hno
      simp only [Bool.false_eq_true, false_iff]
      rintro ⟨root, hroot, -⟩
      exact hno root hroot
  have hmeta := (metadata_some M F tr cols).1
  unfold report
  cases hm : traceMetadata M F tr cols with
  | none =>
    simp only [Bool.false_eq_true, false_iff]
    rintro ⟨h1, -, h2, -⟩
    obtain ⟨m, h⟩ := hmeta.2 ⟨h1, h2⟩
    rw [hm] at h; cases h
  | some m =>
    obtain ⟨h1, h2⟩ := hmeta.1 ⟨m, hm⟩
    simp only [andThen_ok, true_and, hflat, htree h1]
    constructor
    · rintro ⟨⟨h3, h4⟩, root, h5, h6⟩
      exact ⟨h1, h3, h2, root, h5, h4, h6⟩
    · rintro ⟨-, h3, -, root, h5, h4, h6⟩
      exact ⟨⟨h3, h4⟩, root, h5, h6⟩


/-- What the section on types consists of: every type of activity once, with the self-duration of its activities, the
longest first; the types whose share is below the threshold are only counted. -/
structure TypesShown {α : Type} (tr : Trace K α) (threshold : Fl (Ext K)) (lines : List (Line K)) : Prop where
  ex : ∃ shown hidden : List (Text × Fl K),
    lines = shown.map (fun e => .type e.1 e.2) ++ (if hidden = [] then [] else [.typesLeft hidden.length]) ∧
    ((shown ++ hidden).map (·.1)).Nodup ∧
    (∀ n, n ∈ (shown ++ hidden).map (·.1) ↔ ∃ i ∈ allActivities tr.tree, (statOf tr.tree i).map (fun s => tr.name s.act) = some n) ∧
    (∀ e ∈ shown ++ hidden, e.2 = .num (total (selfDuration tr.tree) ((allActivities tr.tree).filter fun i =>
        ((statOf tr.tree i).map fun s => tr.name s.act) = some e.1))) ∧
    shown.Pairwise (fun a b => a.2.ge b.2 = true) ∧
    (∀ e ∈ shown, Fl.lt (share (rootSum tr.tree) e.2) threshold = false) ∧
    (∀ e ∈ hidden, Fl.lt (share (rootSum tr.tree) e.2) threshold = true)

theorem types_shown {α : Type} {C : Choice K} {tr : Trace K α} (hC : C.Valid tr) {tmin : K}
    {xs : List (Stat K K α)} (hl : load tmin xs = .ok tr.tree) (h0 : 0 ≤ rootSum tr.tree) (threshold : Fl (Ext K)) :
    TypesShown tr threshold (typeLines (rootSum tr.tree) threshold C.breakdown) := by
  obtain ⟨out, ho, h1, h2, h3, h4⟩ := breakdown_spec _ _ _ (fun n _ => by rw [typeTotal_exact]; exact nofun) _ hC.breakdown
  cases ho
  obtain ⟨out, roots, ho, -, h5, -⟩ := breakdown_total tr.name hl _ hC.breakdown
  cases ho
  have hperm : ((C.breakdown.filter fun e => !Fl.lt (share (rootSum tr.tree) e.2) threshold) ++
      (C.breakdown.filter fun e => Fl.lt (share (rootSum tr.tree) e.2) threshold)).Perm C.breakdown := by
    have := List.filter_append_perm (fun e : Text × Fl K => Fl.lt (share (rootSum tr.tree) e.2) threshold) C.breakdown
    exact List.perm_append_comm.trans this
  refine ⟨_, _, typeLines_spec h0 threshold _ h4, ?_, ?_, ?_, ?_, ?_, ?_⟩
  · exact (hperm.map _).nodup_iff.2 h1
  · intro n
    rw [(hperm.map _).mem_iff, h2]
    simp only [List.map_map, treeActs, List.mem_map, List.mem_filterMap, Function.comp]
    constructor
    · rintro ⟨a, ⟨i, hi, ha⟩, rfl⟩
      refine ⟨i, hi, ?_⟩
      cases hst : statOf tr.tree i with
      | none => rw [hst] at ha; cases ha
      | some st =>
        cases hsd : selfDuration tr.tree i with
        | none => rw [hst, hsd] at ha; cases ha
        | some d => rw [hst, hsd] at ha; cases ha; rfl
    · rintro ⟨i, hi, hn⟩
      have hi' : i < xs.length := by rw [(c01_contents hl).1] at hi; exact List.mem_range.1 hi
      obtain ⟨-, -, -, -, hsd⟩ := (c06_accessors_no_panic hl).2 i hi'
      cases hst : statOf tr.tree i with
      | none => rw [hst] at hn; cases hn
      | some st =>
        cases hsd' : selfDuration tr.tree i with
        | none => exact absurd hsd' hsd
        | some d =>
          rw [hst] at hn
          cases hn
          exact ⟨(tr.name st.act, d), ⟨i, hi, by rw [hst, hsd']⟩, rfl⟩
  · intro e he
    exact h5 e (hperm.mem_iff.1 he)
  · exact h4.sublist List.filter_sublist
  · intro e he
    simpa using (List.mem_filter.1 he).2
  · intro e he
    exact (List.mem_filter.1 he).2

/-- What the flat profile consists of: exactly the activities whose share of self-duration reaches the threshold, once
each, the hottest first, on lines that fit; the others are counted. -/
structure FlatShown {α : Type} (M : Metrics) (F : Format K) (tr : Trace K α) (threshold : Fl (Ext K)) (cols : Nat)
    (lines : List (Line K)) : Prop where
  ex : ∃ (ids : List Nat) (texts : List Text),
    lines = texts.map .flat ++
      (if ids.length < (allActivities tr.tree).length then [.flatLeft ((allActivities tr.tree).length - ids.length)] else []) ∧
    ids.Nodup ∧
    (∀ i, i ∈ ids ↔ i ∈ allActivities tr.tree ∧ (share (rootSum tr.tree) (selfFl tr.tree i)).ge threshold = true) ∧
    ids.Pairwise (fun a b => (share (rootSum tr.tree) (selfFl tr.tree a)).ge (share (rootSum tr.tree) (selfFl tr.tree b)) = true) ∧
    List.Forall₂ (fun i text => ∃ a t, tr.arg i = some a ∧
      displayActivity M (nameOf tr i) a (F.info ((selfDuration tr.tree i).getD 0)
        (share (rootSum tr.tree) (selfFl tr.tree i))) (cols - 2) = some t ∧ text = lit "- " ++ t) ids texts ∧
    (∀ text ∈ texts, M.width text ≤ cols)

/-- What the hierarchical profile consists of: the drawing of a tree of activities, whose nodes at depth `k` are exactly
the activities `k` hot calls below the root while columns are left, each followed by its hot callees, hottest first, and
by the number of the others; no line is too long. -/
structure TreeShown {α : Type} (M : Metrics) (F : Format K) (tr : Trace K α) (threshold : Fl (Ext K)) (cols root : Nat)
    (lines : List (Line K)) : Prop where
  ex : ∃ p : PTree,
    lines = ((nodes [] p).map fun n => .tree (drawn n.1 n.2)) ++ [.blank] ∧
    (∀ k i, (∃ text kids, SubTree p k (.node (.act i) text kids)) ↔ InTree tr threshold cols root k i) ∧
    (∀ k i text kids, SubTree p k (.node (.act i) text kids) →
      (∃ a, tr.arg i = some a ∧ displayActivity M (nameOf tr i) a (F.info ((duration tr.tree i).getD 0)
        (share (rootSum tr.tree) (durFl tr.tree i))) (cols - 2 * k) = some text) ∧
      (cols ≤ 2 * k + 2 → kids = []) ∧
      (2 * k + 2 < cols → ∃ hot : List Nat,
        hot.Perm (((directChildren tr.tree i).getD []).filter fun c =>
          (share (rootSum tr.tree) (durFl tr.tree c)).ge threshold) ∧
        hot.Pairwise (fun a b => (share (rootSum tr.tree) (durFl tr.tree a)).ge (share (rootSum tr.tree) (durFl tr.tree b)) = true) ∧
        kids.map PTree.label = hot.map .act ++
          (let cold := ((directChildren tr.tree i).getD []).filter fun c =>
            !(share (rootSum tr.tree) (durFl tr.tree c)).ge threshold
           if cold = [] then [] else [.more cold.length]))) ∧
    (∀ n ∈ nodes [] p, M.width (drawn n.1 n.2) ≤ cols)


/-- What the nodes of a hierarchical profile hold. -/
theorem hierTree_sub (M : Metrics) (P : Prof) (cols : Nat) : ∀ root p, hierTree M P cols root = some p →
    ∀ k l text kids, SubTree p k (.node l text kids) →
      (∃ i, l = .act i ∧ P.line i (cols - 2 * k) = some text) ∨
      (∃ n, l = .more n ∧ M.width text ≤ cols - 2 * k ∧ 2 * k < cols) := by
  induction cols using Nat.strongRecOn with
  | _ cols ih =>
    intro root p hp k l text' kids' hs
    obtain ⟨text, htext, hc⟩ := hierTree_cases hp
    rcases hc with ⟨-, rfl⟩ | ⟨h3, kids, hk, ⟨-, rfl⟩ | ⟨-, rfl⟩⟩
    · cases hs with
      | root => exact Or.inl ⟨root, rfl, htext⟩
      | kid hm _ => cases hm
    · cases hs with
      | root => exact Or.inl ⟨root, rfl, htext⟩
      | kid hm hs =>
        rename_i c k
        obtain ⟨a, _, hca⟩ := forall₂_mem_right hk hm
        have := ih (cols - 2) (by omega) a c hca k l text' kids' hs
        rw [show cols - 2 * (k + 1) = cols - 2 - 2 * k by omega]
        rcases this with h | ⟨n, h1, h2, h3'⟩
        · exact Or.inl h
        · exact Or.inr ⟨n, h1, h2, by omega⟩
    · cases hs with
      | root => exact Or.inl ⟨root, rfl, htext⟩
      | kid hm hs =>
        rename_i c k
        rcases List.mem_append.1 hm with hm | hm
        · obtain ⟨a, _, hca⟩ := forall₂_mem_right hk hm
          have := ih (cols - 2) (by omega) a c hca k l text' kids' hs
          rw [show cols - 2 * (k + 1) = cols - 2 - 2 * k by omega]
          rcases this with h | ⟨n, h1, h2, h3'⟩
          · exact Or.inl h
          · exact Or.inr ⟨n, h1, h2, by omega⟩
        · simp only [List.mem_singleton] at hm
          subst hm
          cases hs with
          | root =>
            refine Or.inr ⟨_, rfl, ?_, by omega⟩
            split
            · simp; omega
            · omega
          | kid hm' _ => cases hm'

theorem forall₂_imp_mem {α β : Type} {R S : α → β → Prop} {l : List α} {r : List β} (h : List.Forall₂ R l r)
    (himp : ∀ a b, a ∈ l → R a b → S a b) : List.Forall₂ S l r := by
  induction h with
  | nil => exact .nil
  | cons h1 h2 ih => exact .cons (himp _ _ (by simp) h1) (ih fun a b ha => himp a b (by simp [ha]))

theorem tree_shown {α : Type} {M : Metrics} (hM : Thin M) {F : Format K} {C : Choice K} {tr : Trace K α} (hC : C.Valid tr)
    (hs : Sensible M F tr) {tmin : K} {xs : List (Stat K K α)} (hl : load tmin xs = .ok tr.tree) (threshold : Fl (Ext K))
    {cols : Nat} (h1 : 1 ≤ cols) (hcu : cols < 65536) {root : Nat} (hr : rootActivities tr.tree = some [root]) {p : PTree}
    (hp : hierTree M (profOf M F C tr threshold) cols root = some p) :
    TreeShown M F tr threshold cols root ((draw p).map .tree ++ [.blank]) := by
  have hperm : ∀ l, ((profOf M F C tr threshold).hot l).Perm (l.filter fun i =>
      (share (rootSum tr.tree) (durFl tr.tree i)).ge threshold) := fun l => hot_perm hC _ _ l
  have hshow : ∀ k i, (∃ text kids, SubTree p k (.node (.act i) text kids)) ↔ InTree tr threshold cols root k i := by
    intro k i
    rw [hierTree_shows M _ _ hperm cols root p hp k i, prof_chain]
    rfl
  have hsub := hierTree_sub M _ cols root p hp
  refine ⟨p, ?_, hshow, ?_, ?_⟩
  · rw [draw_nodes, List.map_map]; rfl
  · intro k i text kids hst
    have hkids := hierTree_kids M _ _ hperm cols root p hp k i text kids hst
    refine ⟨?_, ?_, ?_⟩
    · rcases hsub k _ text kids hst with ⟨j, hj, ht⟩ | ⟨n, hn, -⟩
      · cases hj
        change activityText M F tr (fun i => (duration tr.tree i).getD 0) i (cols - 2 * k) = some text at ht
        unfold activityText at ht
        cases ha : tr.arg i with
        | none => rw [ha] at ht; cases ht
        | some a => rw [ha] at ht; exact ⟨a, rfl, ht⟩
      · cases hn
    · intro hc
      rw [if_pos hc] at hkids
      simpa using hkids
    · intro hc
      rw [if_neg (by omega)] at hkids
      obtain ⟨out, ho, hpp, -, hsort⟩ := hottest_spec _ _ _ _
        (hC.hot (fun i => share (rootSum tr.tree) (durFl tr.tree i)) threshold ((directChildren tr.tree i).getD []))
      cases ho
      exact ⟨_, hpp, hsort, hkids⟩
  · intro n hn
    obtain ⟨k, l, kids, hk, hst⟩ := nodes_sub p [] n hn
    rw [drawn_width hM, show n.1.length = k by simpa using hk]
    rcases hsub k _ _ kids hst with ⟨i, rfl, ht⟩ | ⟨m, -, hw, hlt⟩
    · obtain ⟨hch, hkc⟩ := (hshow k i).1 ⟨_, _, hst⟩
      have hi := tree_ids hl hr (by simp) hch
      have := (line_iff hs hl C threshold i (cols - 2 * k) hi (by omega) (by omega)).1 _ ht
      omega
    · omega

theorem flat_shown {α : Type} {M : Metrics} {F : Format K} {C : Choice K} {tr : Trace K α} (hC : C.Valid tr)
    (hs : Sensible M F tr) {tmin : K} {xs : List (Stat K K α)} (hl : load tmin xs = .ok tr.tree) (threshold : Fl (Ext K))
    {cols : Nat} (hcu : cols < 65536) (hok : (flatSection M F C tr threshold cols).ok = true) :
    FlatShown M F tr threshold cols (flatSection M F C tr threshold cols).out := by
  have hall : allActivities tr.tree = List.range xs.length := (c01_contents hl).1
  have hperm := hot_perm hC (fun i => share (rootSum tr.tree) (selfFl tr.tree i)) threshold (allActivities tr.tree)
  obtain ⟨out, ho, -, -, hsort⟩ := hottest_spec _ _ _ _ (hC.hot (fun i => share (rootSum tr.tree) (selfFl tr.tree i))
    threshold (allActivities tr.tree))
  cases ho
  unfold flatSection at hok ⊢
  simp only [andThen_ok, and_true] at hok
  rw [andThen_out _ hok]
  have hok' := (flatLines_ok _ _ _).1 hok
  obtain ⟨texts, e1, e2⟩ := flatLines_out _ _ _ hok
  generalize C.hot (fun i => share (rootSum tr.tree) (selfFl tr.tree i)) threshold (allActivities tr.tree) = ids at *
  have hmem : ∀ i, i ∈ ids ↔ i ∈ allActivities tr.tree ∧ (share (rootSum tr.tree) (selfFl tr.tree i)).ge threshold = true := by
    intro i
    rw [hperm.mem_iff, List.mem_filter]
  have key : ∀ i t, i ∈ ids → activityText M F tr (fun i => (selfDuration tr.tree i).getD 0) i (cols - 2) = some t →
      M.width (lit "- " ++ t) ≤ cols ∧ ∃ a, tr.arg i = some a ∧
      displayActivity M (nameOf tr i) a (F.info ((selfDuration tr.tree i).getD 0)
        (share (rootSum tr.tree) (selfFl tr.tree i))) (cols - 2) = some t := by
    intro i t hi ht
    have hi' : i < xs.length := by
      have := ((hmem i).1 hi).1
      rw [hall] at this; exact List.mem_range.1 this
    have h2 := (hok' i hi).1
    have h3 : 3 ≤ cols := by
      by_contra hc
      have : cols - 2 = 0 := by omega
      rw [this] at ht
      unfold activityText at ht
      split at ht
      · cases ht
      · unfold displayActivity at ht; rw [if_pos (by omega)] at ht; cases ht
    have hw := (text_iff hs hl _ hi' (by omega) (by omega)).1 t ht
    refine ⟨?_, ?_⟩
    · rw [Metrics.width_append, Metrics.width_lit _ _ (by decide)]
      have : "- ".toList.length = 2 := rfl
      omega
    · unfold activityText at ht
      cases ha : tr.arg i with
      | none => rw [ha] at ht; cases ht
      | some a => rw [ha] at ht; exact ⟨a, rfl, ht⟩
  refine ⟨ids, texts, by rw [e1], hperm.nodup_iff.2 ?_, hmem, hsort, ?_, ?_⟩
  · rw [hall]; exact List.nodup_range.filter _
  · refine forall₂_imp_mem e2 ?_
    rintro i text hi ⟨t, ht, rfl⟩
    obtain ⟨-, a, ha, hd⟩ := key i t hi ht
    exact ⟨a, t, ha, hd, rfl⟩
  · intro text htx
    obtain ⟨i, hi, t, ht, rfl⟩ := forall₂_mem_right e2 htx
    exact (key i t hi ht).1


/-- **C82 (the report).** A complete report consists of the metadata of the trace, every line of which fits in the
columns, and of the three profiles described by `TypesShown`, `FlatShown` and `TreeShown`, in this order, each below a
blank line and its heading. (For the profile by type the total duration must not be negative.) -/
theorem c82_report {α : Type} (M : Metrics) (hM : Thin M) (F : Format K) (C : Choice K) (tr : Trace K α) (hC : C.Valid tr)
    (hs : Sensible M F tr) {tmin : K} {xs : List (Stat K K α)} (hl : load tmin xs = .ok tr.tree)
    (h0 : 0 ≤ rootSum tr.tree) (term : Option Nat) (maxCols : Nat) (hu : maxCols < 65536) (selfThr hierThr : Fl (Ext K))
    (hok : (run M F C (some (some tr)) term maxCols selfThr hierThr).2.ok = true) :
    let cols := columns term maxCols
    ∃ (m : Text) (types flat tree : List (Line K)) (root : Nat),
      run M F C (some (some tr)) term maxCols selfThr hierThr =
        ([.processing], ⟨[.blank, .metadata m, .blank, .headTypes] ++ types ++ [.blank, .headFlat] ++ flat ++
          [.blank, .headTree] ++ tree, true⟩) ∧
      traceMetadata M F tr cols = some m ∧ (∀ l ∈ linesOf m, M.width l ≤ cols) ∧
      TypesShown tr selfThr types ∧ FlatShown M F tr selfThr cols flat ∧
      rootActivities tr.tree = some [root] ∧ TreeShown M F tr hierThr cols root tree := by
  intro cols
  have hcu : cols < 65536 := by
    have := (c82_columns term maxCols cols).1 (Nat.le_refl _); omega
  have h1 := ((c82_completes M F C tr hC hs hl term maxCols hu selfThr hierThr).1 hok).1
  obtain ⟨hmeta, hfit⟩ := metadata_some M F tr cols
  change (report M F C tr selfThr hierThr cols).ok = true at hok
  show ∃ (m : Text) (types flat tree : List (Line K)) (root : Nat),
    (([.processing] : List Msg), report M F C tr selfThr hierThr cols) = _ ∧ _
  cases hm : traceMetadata M F tr cols with
  | none => unfold report at hok; rw [hm] at hok; cases hok
  | some m =>
    have hrep : report M F C tr selfThr hierThr cols =
        Res.andThen ⟨[.blank, .metadata m], true⟩ (Res.andThen
          ⟨[.blank, .headTypes] ++ typeLines (rootSum tr.tree) selfThr C.breakdown, true⟩ (Res.andThen
          ⟨[.blank, .headFlat], true⟩ (Res.andThen (flatSection M F C tr selfThr cols) (Res.andThen
          ⟨[.blank, .headTree], true⟩ (treeSection M F C tr hierThr cols))))) := by
      unfold report; rw [hm]
    have hok2 := hok
    rw [hrep] at hok2
    simp only [andThen_ok, true_and] at hok2
    obtain ⟨hf, ht⟩ := hok2
    have htree : ∃ root p, rootActivities tr.tree = some [root] ∧
        hierTree M (profOf M F C tr hierThr) cols root = some p ∧
        (treeSection M F C tr hierThr cols).out = (draw p).map .tree ++ [.blank] := by
      unfold treeSection at ht ⊢
      split at ht
      · rename_i root hroot
        cases hp : hierTree M (profOf M F C tr hierThr) cols root with
        | none => rw [hp] at ht; cases ht
        | some p => exact ⟨root, p, hroot, hp, by simp only [hroot, hp]⟩
      · cases ht
    obtain ⟨root, p, hr, hp, hto⟩ := htree
    refine ⟨m, _, _, _, root, ?_, rfl, hfit m hm, types_shown hC hl h0 selfThr, flat_shown hC hs hl selfThr hcu hf, hr,
      tree_shown hM hC hs hl hierThr h1 hcu hr hp⟩
    have hout := congrArg Res.out hrep
    rw [andThen_out _ rfl, andThen_out _ rfl, andThen_out _ rfl, andThen_out _ hf, andThen_out _ rfl, hto] at hout
    congr 1
    have : report M F C tr selfThr hierThr cols = ⟨(report M F C tr selfThr hierThr cols).out, true⟩ := by
      rw [← hok]
    rw [this, hout]
    simp only [List.append_assoc, List.cons_append, List.nil_append]

/-- **C82** (*defect*). A trace with no root activity, or with several ones, is reported up to the heading of the
hierarchical profile, where the program panics. -/
theorem c82_several_roots {α : Type} (M : Metrics) (F : Format K) (C : Choice K) (tr : Trace K α) (hC : C.Valid tr)
    (hs : Sensible M F tr) {tmin : K} {xs : List (Stat K K α)} (hl : load tmin xs = .ok tr.tree)
    (term : Option Nat) (maxCols : Nat) (hu : maxCols < 65536) (selfThr hierThr : Fl (Ext K))
    (h3 : 3 ≤ columns term maxCols) (hd : ∀ o, tr.origin = some o → FourDigits o)
    (ha : ∀ i, (tr.arg i).isSome = true) (roots : List Nat) (hr : rootActivities tr.tree = some roots)
    (hn : roots.length ≠ 1) :
    ∃ (m : Text) (flat : List (Line K)),
      run M F C (some (some tr)) term maxCols selfThr hierThr =
        ([.processing], ⟨[.blank, .metadata m, .blank, .headTypes] ++ typeLines (rootSum tr.tree) selfThr C.breakdown ++
          [.blank, .headFlat] ++ flat ++ [.blank, .headTree], false⟩) ∧
      FlatShown M F tr selfThr (columns term maxCols) flat := by
  generalize hcols : columns term maxCols = cols at *
  have hcu : cols < 65536 := by
    have := (c82_columns term maxCols cols).1 (by omega); omega
  obtain ⟨m, hm⟩ := (metadata_some M F tr cols).1.2 ⟨by omega, Or.inr fun o ho => (date_iff o).2 (hd o ho)⟩
  have hall : allActivities tr.tree = List.range xs.length := (c01_contents hl).1
  have hf : (flatSection M F C tr selfThr cols).ok = true := by
    unfold flatSection
    simp only [andThen_ok, and_true, flatLines_ok]
    intro i hi
    rw [(hot_perm hC _ _ _).mem_iff, List.mem_filter, hall, List.mem_range] at hi
    exact ⟨by omega, (text_iff hs hl _ hi.1 (by omega) (by omega)).2.2 (ha i)⟩
  have ht : treeSection M F C tr hierThr cols = ⟨[], false⟩ := by
    unfold treeSection
    rw [hr]
    split
    · rename_i root h; cases h; exact absurd rfl hn
    · rfl
  refine ⟨m, (flatSection M F C tr selfThr cols).out, ?_, flat_shown hC hs hl selfThr hcu hf⟩
  show (([.processing] : List Msg), report M F C tr selfThr hierThr (columns term maxCols)) = _
  rw [hcols]
  congr 1
  unfold report
  rw [hm]
  simp only [ht, Res.andThen, hf, if_true, List.append_assoc, List.cons_append, List.nil_append, List.append_nil]

end

/-! ## Concrete cases -/

/-- There always is a valid choice. -/
theorem choice_exists {K α : Type} [Field K] [LinearOrder K] [IsStrictOrderedRing K] (tr : Trace K α) :
    ∃ C : Choice K, C.Valid tr := by
  obtain ⟨o, ho⟩ := breakdown_exists Fl.add (.num 0) ((treeActs tr.name tr.tree).map fun a => (a.1, .num a.2))
  obtain ⟨bd, rfl, -⟩ := breakdown_spec _ _ _ (fun n _ => by rw [typeTotal_exact]; exact nofun) o ho
  have h : ∀ (metric : Nat → Fl (Ext K)) threshold l, ∃ out, HottestOut l metric threshold (.ok out) := by
    intro metric threshold l
    obtain ⟨o, ho⟩ := hottest_exists l metric threshold
    obtain ⟨out, rfl, -⟩ := hottest_spec l metric threshold o ho
    exact ⟨out, ho⟩
  exact ⟨⟨bd, fun m t l => (h m t l).choose⟩, ho, fun m t l => (h m t l).choose_spec⟩

/-- One root (3) with a callee (1) that has a callee (0), and another callee (2). -/
def sampleXs : List (Stat ℚ ℚ Text) :=
  [⟨lit "parse", 3, 5, 2⟩, ⟨lit "frontend", 2, 8, 6⟩, ⟨lit "link", 9, 10, 1⟩, ⟨lit "compile", 0, 20, 20⟩]

def sampleTree (xs : List (Stat ℚ ℚ Text)) : ATree ℚ ℚ Text :=
  match load 0 xs with
  | .ok t => t
  | .error _ => ⟨[], [], 0⟩

theorem sampleLoad (xs : List (Stat ℚ ℚ Text)) (h : (load 0 xs).isOk = true) : load 0 xs = .ok (sampleTree xs) := by
  unfold sampleTree
  cases hl : load 0 xs with
  | ok t => rfl
  | error e => rw [hl] at h; cases h

def sampleTrace (xs : List (Stat ℚ ℚ Text)) : Trace ℚ Text :=
  ⟨sampleTree xs, fun t => lit "x" ++ t, lit "clang-14", some 42, none, some 1656000000000000, fun _ => some .nothing⟩

def sampleFormat : Format ℚ where
  pid n := lit "pid 42"
  thread t := lit "thread \"" ++ t ++ lit "\""
  date _ := lit "recorded 2022-06-23T16:00:00Z"
  info _ _ := lit " [1s]"
  more n := lit "…others…"

theorem sampleSensible (xs : List (Stat ℚ ℚ Text)) : Sensible .unit sampleFormat (sampleTrace xs) where
  name a := by
    have : (Metrics.unit).width (lit "x") = 1 := by decide
    show 1 ≤ (Metrics.unit).width (lit "x" ++ a)
    rw [Metrics.width_append]; omega
  arg i a h := by cases h; trivial
  info d s := by
    show (Metrics.unit).width (lit " [1s]") < 65536
    decide

/-- A trace with one root meets the hypotheses of `c82_completes` and `c82_report`, and is reported. -/
example : ∃ C : Choice ℚ, C.Valid (sampleTrace sampleXs) ∧ Thin .unit ∧ 0 ≤ rootSum (sampleTrace sampleXs).tree ∧
    (run .unit sampleFormat C (some (some (sampleTrace sampleXs))) (some 80) 200 (.num (1/10 : ℚ)) (.num (1/10 : ℚ))).2.ok = true := by
  obtain ⟨C, hC⟩ := choice_exists (sampleTrace sampleXs)
  refine ⟨C, hC, ⟨rfl, rfl, rfl, rfl⟩, by decide +kernel, ?_⟩
  refine (c82_completes .unit sampleFormat C _ hC (sampleSensible _) (sampleLoad sampleXs (by decide +kernel)) _ _ (by decide) _ _).2 ?_
  refine ⟨by decide, fun _ => by decide, Or.inr fun o h => ?_, 3, by decide +kernel, fun _ _ => rfl, fun _ _ _ => rfl⟩
  cases h; exact (date_iff _).1 (by decide +kernel)

/-- A trace with two roots meets the hypotheses of `c82_several_roots`. -/
example : ∃ C : Choice ℚ, C.Valid (sampleTrace (sampleXs.take 3)) ∧ (load 0 (sampleXs.take 3)).isOk = true ∧
    rootActivities (sampleTrace (sampleXs.take 3)).tree = some [2, 1] := by
  obtain ⟨C, hC⟩ := choice_exists (sampleTrace (sampleXs.take 3))
  exact ⟨C, hC, by decide +kernel, by decide +kernel⟩

-- the flat profile needs three columns, the rest of the report one
example : dateOk 253402300800000000 = false := by decide +kernel

-- a drawing
example : draw (.node (.act 0) (lit "a") [.node (.act 1) (lit "b") [.node (.act 2) (lit "c") []], .node (.more 1) (lit "d") []]) =
    [lit "a", lit "├─b", lit "│ └─c", lit "└─d"] := by
  rw [draw_nodes]
  decide +kernel

end Verif.Analysis.Stdio
