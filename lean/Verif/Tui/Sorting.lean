/-
C67: how the profiles on screen are sorted (src/ui/tui/trace/display.rs 455-569, 628-672, 718-740).

The table widget (crate cursive_table_view) is modelled from its documentation: every column has a default direction, at
most one column is marked as sorted, `set_default_column` marks a column with its default direction, `sort` sorts by the
marked column, `sort_by` marks and sorts, and selecting a column header sorts by that column (in its default direction,
or in the opposite direction if the table is sorted by this column already) and then calls the `on_sort` callback.

Columns are identified by what they show: by C59, the duration columns of a profile are always labelled with the current
duration display of this profile, so that `into_column` gives a column that the table has.
-/
import Mathlib.Data.List.Basic
import Mathlib.Data.List.Forall2
import Mathlib.Data.List.Sort
import Mathlib.Tactic.Common

set_option autoImplicit false
set_option linter.unusedVariables false
set_option linter.unusedSimpArgs false

namespace Verif.Tui.Sorting

/-! ## Model -/

/-- `HierarchicalColumnName` (display.rs 628-640). -/
inductive Name where
  | total | self | desc
  deriving DecidableEq

/-- `HierarchicalColumnName::into_flat` (display.rs 643-648). -/
def Name.intoFlat : Name → Name
  | .total => .self
  | n => n

/-- `Ordering::Less` is ascending, `Ordering::Greater` descending. -/
inductive Dir where
  | asc | dsc
  deriving DecidableEq

/-- The other direction. -/
def Dir.flip : Dir → Dir
  | .asc => .dsc
  | .dsc => .asc

/-- `ProfileKind` (display.rs 120-130). -/
inductive Kind where
  | hier | flat
  deriving DecidableEq

/-- How rows compare in a column (`HierarchicalData::cmp`, display.rs 703-724): by total duration, by self-duration or by
description. Durations are not NaN, hence these are total preorders. -/
structure Rows (R : Type) where
  le : Name → R → R → Bool
  total : ∀ n a b, (le n a b || le n b a) = true
  trans : ∀ n a b c, le n a b = true → le n b c = true → le n a c = true

variable {R : Type} (K : Rows R)

/-- Comparison in a direction. -/
def Rows.leDir (n : Name) (d : Dir) (a b : R) : Bool :=
  match d with
  | .asc => K.le n a b
  | .dsc => K.le n b a

/-- A column of the widget: what it shows, its default direction, its mark. -/
structure Col where
  name : Name
  dflt : Dir
  mark : Option Dir
  deriving DecidableEq

/-- The table of a profile. -/
structure Table (R : Type) where
  kind : Kind
  cols : List Col
  rows : List R

/-- `set_default_column` of the widget. -/
def setDefault (n : Name) (cols : List Col) : List Col :=
  if cols.any (fun c => c.name = n) then
    cols.map fun c => { c with mark := if c.name = n then some c.dflt else none }
  else cols

/-- The column by which the table is sorted: the first marked one. -/
def order : List Col → Option (Name × Dir)
  | [] => none
  | c :: cs => match c.mark with
    | some d => some (c.name, d)
    | none => order cs

/-- Sort the rows (stable). -/
def sortRows (n : Name) (d : Dir) (rows : List R) : List R := rows.insertionSort (fun a b => K.leDir n d a b = true)

/-- `sort` of the widget. -/
def sortTable (t : Table R) : Table R :=
  match order t.cols with
  | some (n, d) => { t with rows := sortRows K n d t.rows }
  | none => t

/-- `sort_by` of the widget. -/
def sortBy (n : Name) (d : Dir) (t : Table R) : Table R :=
  { t with
    cols := if t.cols.any (fun c => c.name = n) then
        t.cols.map fun c => { c with mark := if c.name = n then some d else none }
      else t.cols
    rows := sortRows K n d t.rows }

/-- `SortConfig` (display.rs 752-771). -/
structure Config where
  order : Name → Dir
  key : Name

/-- `SortConfig::default` (display.rs 763-770). -/
def Config.default : Config :=
  ⟨fun n => match n with
    | .total => .dsc
    | .self => .dsc
    | .desc => .asc, .total⟩

/-- `add_duration_cols_and_sort` (display.rs 526-569). -/
def addDurationCols (cfg : Config) (t : Table R) : Table R :=
  match t.kind with
  | .hier =>
    let cols := ⟨.total, cfg.order .total, none⟩ :: ⟨.self, cfg.order .self, none⟩ :: t.cols
    sortTable K { t with cols := setDefault cfg.key cols }
  | .flat =>
    let cols := ⟨.self, cfg.order .self, none⟩ :: t.cols
    sortTable K { t with cols := setDefault cfg.key.intoFlat cols }

/-- The table of a new profile (`make_profile_view`, display.rs 316-329). The widget makes its first column the default
one. -/
def newTable (cfg : Config) (kind : Kind) (rows : List R) : Table R :=
  addDurationCols K cfg ⟨kind, setDefault .desc [⟨.desc, cfg.order .desc, none⟩], rows⟩

/-- What `switch_duration_unit` does to a table (display.rs 76-91). -/
def switchTable (cfg : Config) (t : Table R) : Table R :=
  addDurationCols K cfg { t with cols := match t.kind with
    | .hier => t.cols.drop 2
    | .flat => t.cols.drop 1 }

/-- The direction in which selecting a column header sorts. -/
def selectDir (t : Table R) (c : Col) : Dir :=
  match order t.cols with
  | some (n, d) => if n = c.name then d.flip else c.dflt
  | none => c.dflt

/-- The loop of `sort_other_profiles` (display.rs 480-492); the column name is changed for all the following tables when a
flat profile is met. -/
def sortPast (d : Dir) : Name → List (Table R) → List (Table R)
  | _, [] => []
  | n, t :: ts =>
    let n := match t.kind with
      | .hier => n
      | .flat => n.intoFlat
    sortBy K n d t :: sortPast d n ts

/-- The state: the configuration and the tables of the profile stack, bottom first. -/
structure UI (R : Type) where
  cfg : Config
  tables : List (Table R)

/-- What happens to the profiles: a profile is shown (load, zoom, second half of the `f` shortcut) or removed (Esc,
backtrace, first half of `f`, new load), the unit is switched, the user selects the header of a column of the topmost
table, which sorts it in a direction that the user sees. -/
inductive Op (R : Type) where
  | show (kind : Kind) (rows : List R)
  | close
  | switchUnit
  | sort (n : Name) (d : Dir)

/-- One step. A profile is only shown above hierarchical ones (C42). -/
inductive Step : UI R → Op R → UI R → Prop
  /-- `register_profile` and `make_profile_view` -/
  | show (s : UI R) (kind : Kind) (rows : List R) : (∀ t ∈ s.tables, t.kind = .hier) →
      Step s (.show kind rows) { s with tables := s.tables ++ [newTable K s.cfg kind rows] }
  | close (s : UI R) : Step s .close { s with tables := s.tables.dropLast }
  /-- `switch_duration_unit` -/
  | switchUnit (s : UI R) : Step s .switchUnit { s with tables := s.tables.map (switchTable K s.cfg) }
  /-- the widget sorts the top table, then `sort_other_profiles` runs -/
  | sort (cfg : Config) (past : List (Table R)) (t : Table R) (c : Col) : c ∈ t.cols →
      Step ⟨cfg, past ++ [t]⟩ (.sort c.name (selectDir t c))
        ⟨⟨fun n => if n = c.name then selectDir t c else cfg.order n, c.name⟩,
          sortPast K (selectDir t c) c.name past ++ [sortBy K c.name (selectDir t c) t]⟩

/-- Histories from the start of the program. Last operation first. -/
inductive Reach : List (Op R) → UI R → Prop
  | init : Reach [] ⟨Config.default, []⟩
  | step {h : List (Op R)} {s s' : UI R} {o : Op R} : Reach h s → Step K s o s' → Reach (o :: h) s'

/-! ## Specification -/

/-- The column that the user chose last. -/
def chosen : List (Op R) → Name
  | [] => .total
  | .sort n _ :: _ => n
  | _ :: h => chosen h

/-- The direction in which the user last saw a column sorted on request; initially, longest durations first and
alphabetic order. -/
def direction (n : Name) : List (Op R) → Dir
  | [] => match n with
    | .desc => .asc
    | _ => .dsc
  | .sort m d :: h => if m = n then d else direction n h
  | _ :: h => direction n h

/-- Has the unit been switched since the user last chose a column? -/
def switchedSince : List (Op R) → Bool
  | [] => false
  | .sort _ _ :: _ => false
  | .switchUnit :: _ => true
  | _ :: h => switchedSince h

/-- The column that sorts a profile of this kind: a flat profile has no total column. -/
def columnFor : Kind → Name → Name
  | .hier, n => n
  | .flat, .total => .self
  | .flat, n => n

/-- Rows are in order. -/
def InOrder (n : Name) : Dir → List R → Prop
  | .asc, rows => rows.Pairwise fun a b => K.le n a b = true
  | .dsc, rows => rows.Pairwise fun a b => K.le n b a = true

/-! ## Proof -/

theorem leDir_total (n : Name) (d : Dir) (a b : R) : (K.leDir n d a b || K.leDir n d b a) = true := by
  cases d
  · exact K.total n a b
  · exact K.total n b a

theorem leDir_trans (n : Name) (d : Dir) (a b c : R) : K.leDir n d a b = true → K.leDir n d b c = true →
    K.leDir n d a c = true := by
  cases d
  · exact K.trans n a b c
  · exact fun h1 h2 => K.trans n c b a h2 h1

theorem sortRows_inOrder (n : Name) (d : Dir) (rows : List R) : InOrder K n d (sortRows K n d rows) := by
  have : Std.Total (fun a b => K.leDir n d a b = true) := ⟨fun a b => by simpa using leDir_total K n d a b⟩
  have : IsTrans R (fun a b => K.leDir n d a b = true) := ⟨leDir_trans K n d⟩
  have := List.pairwise_insertionSort (fun a b => K.leDir n d a b = true) rows
  cases d <;> exact this

theorem sortRows_perm (n : Name) (d : Dir) (rows : List R) : (sortRows K n d rows).Perm rows :=
  List.perm_insertionSort _ _

/-- The columns of a table: those of its kind, with the marked one. -/
def colsOf (k : Kind) (dt ds dd : Dir) (n : Name) (d : Dir) : List Col :=
  let m := fun c => if c = n then some d else none
  match k with
  | .hier => [⟨.total, dt, m .total⟩, ⟨.self, ds, m .self⟩, ⟨.desc, dd, m .desc⟩]
  | .flat => [⟨.self, ds, m .self⟩, ⟨.desc, dd, m .desc⟩]

/-- A table sorted by column `n` in direction `d`. -/
def Ok (n : Name) (d : Dir) (t : Table R) : Prop :=
  (∃ dt ds dd, t.cols = colsOf t.kind dt ds dd n d) ∧ InOrder K n d t.rows ∧ (t.kind = .flat → n ≠ .total)

/-- A table sorted in some direction. -/
def OkDir (n : Name) (t : Table R) : Prop := ∃ d, Ok K n d t

theorem addDurationCols_ok (cfg : Config) (k : Kind) (dd : Dir) (m : Option Dir) (rows : List R) :
    Ok K (columnFor k cfg.key) (if cfg.key = .desc then dd else cfg.order (columnFor k cfg.key))
      (addDurationCols K cfg ⟨k, [⟨.desc, dd, m⟩], rows⟩) ∧
    (addDurationCols K cfg ⟨k, [⟨.desc, dd, m⟩], rows⟩).kind = k ∧
    (addDurationCols K cfg ⟨k, [⟨.desc, dd, m⟩], rows⟩).rows.Perm rows := by
  cases k <;> rcases hk : cfg.key with _ | _ | _ <;>
    simp [addDurationCols, hk, sortTable, setDefault, order, Name.intoFlat, columnFor, Ok, colsOf,
      sortRows_inOrder, sortRows_perm] <;> exact ⟨.asc⟩

theorem newTable_ok (cfg : Config) (k : Kind) (rows : List R) :
    Ok K (columnFor k cfg.key) (cfg.order (columnFor k cfg.key)) (newTable K cfg k rows) ∧
    (newTable K cfg k rows).kind = k ∧ (newTable K cfg k rows).rows.Perm rows := by
  have e : setDefault .desc [(⟨.desc, cfg.order .desc, none⟩ : Col)]
      = [⟨.desc, cfg.order .desc, some (cfg.order .desc)⟩] := by
    simp [setDefault]
  have := addDurationCols_ok K cfg k (cfg.order .desc) (some (cfg.order .desc)) rows
  rw [newTable, e]
  refine ⟨?_, this.2⟩
  by_cases hk : cfg.key = .desc
  · have h1 := this.1
    rw [if_pos hk] at h1
    have e2 : columnFor k cfg.key = .desc := by rw [hk]; cases k <;> rfl
    rw [e2] at h1 ⊢; exact h1
  · have h1 := this.1
    rwa [if_neg hk] at h1

theorem switchTable_ok (cfg : Config) (t : Table R) (n : Name) (d : Dir) (h : Ok K n d t) :
    OkDir K (columnFor t.kind cfg.key) (switchTable K cfg t) ∧
    (cfg.key ≠ .desc → Ok K (columnFor t.kind cfg.key) (cfg.order (columnFor t.kind cfg.key)) (switchTable K cfg t)) ∧
    (switchTable K cfg t).kind = t.kind ∧ (switchTable K cfg t).rows.Perm t.rows := by
  obtain ⟨⟨dt, ds, dd, hc⟩, -, -⟩ := h
  obtain ⟨k, cols, rows⟩ := t
  simp only at hc
  subst hc
  have e : switchTable K cfg ⟨k, colsOf k dt ds dd n d, rows⟩
      = addDurationCols K cfg ⟨k, [⟨.desc, dd, if Name.desc = n then some d else none⟩], rows⟩ := by
    cases k <;> rfl
  rw [e]
  have := addDurationCols_ok K cfg k dd (if Name.desc = n then some d else none) rows
  refine ⟨⟨_, this.1⟩, fun hk => ?_, this.2⟩
  have h1 := this.1
  rwa [if_neg hk] at h1

theorem sortBy_ok (t : Table R) (n m : Name) (d e : Dir) (h : Ok K n d t) (hm : t.kind = .flat → m ≠ .total) :
    Ok K m e (sortBy K m e t) ∧ (sortBy K m e t).kind = t.kind ∧ (sortBy K m e t).rows.Perm t.rows := by
  obtain ⟨⟨dt, ds, dd, hc⟩, -, -⟩ := h
  obtain ⟨k, cols, rows⟩ := t
  simp only at hc hm
  subst hc
  refine ⟨⟨⟨dt, ds, dd, ?_⟩, sortRows_inOrder K m e rows, hm⟩, rfl, sortRows_perm K m e rows⟩
  cases k <;> cases m <;> simp_all [sortBy, colsOf]

theorem sortPast_hier (d : Dir) (n : Name) (ts : List (Table R)) (h : ∀ t ∈ ts, t.kind = .hier) :
    sortPast K d n ts = ts.map (sortBy K n d) := by
  induction ts with
  | nil => rfl
  | cons t ts ih =>
    simp only [sortPast, h t (by simp), List.map_cons]
    rw [ih (fun u hu => h u (by simp [hu]))]

/-- The invariant. -/
structure Inv (h : List (Op R)) (s : UI R) : Prop where
  key : s.cfg.key = chosen h
  dir : ∀ n, s.cfg.order n = direction n h
  ok : ∀ t ∈ s.tables, OkDir K (columnFor t.kind (chosen h)) t
  exact : (chosen h ≠ .desc ∨ switchedSince h = false) → ∀ t ∈ s.tables,
    Ok K (columnFor t.kind (chosen h)) (direction (columnFor t.kind (chosen h)) h) t
  hier : ∀ t ∈ s.tables.dropLast, t.kind = .hier

theorem columnFor_ne (k : Kind) (n : Name) : k = .flat → columnFor k n ≠ .total := by
  intro e; subst e; cases n <;> simp [columnFor]

theorem mem_dropLast_concat {α : Type} {l : List α} {a : α} (x : α) : x ∈ (l ++ [a]).dropLast ↔ x ∈ l := by simp

theorem inv (h : List (Op R)) (s : UI R) (hr : Reach K h s) : Inv K h s := by
  induction hr with
  | init =>
    refine ⟨rfl, fun n => by cases n <;> rfl, ?_, ?_, ?_⟩ <;> simp
  | @step h s s' o hr st ih =>
    cases st with
    | «show» _ kind rows hh =>
      have hn := newTable_ok K s.cfg kind rows
      rw [ih.key, ih.dir] at hn
      refine ⟨ih.key, ih.dir, ?_, ?_, ?_⟩
      · intro t ht
        rcases List.mem_append.1 ht with ht | ht
        · exact ih.ok t ht
        · simp only [List.mem_singleton] at ht; subst ht
          rw [hn.2.1]; exact ⟨_, hn.1⟩
      · intro hc t ht
        rcases List.mem_append.1 ht with ht | ht
        · exact ih.exact hc t ht
        · simp only [List.mem_singleton] at ht; subst ht
          rw [hn.2.1]; exact hn.1
      · intro t ht
        exact hh t ((mem_dropLast_concat t).1 ht)
    | close =>
      exact ⟨ih.key, ih.dir, fun t ht => ih.ok t (List.dropLast_subset _ ht),
        fun hc t ht => ih.exact hc t (List.dropLast_subset _ ht),
        fun t ht => ih.hier t (List.dropLast_subset _ ht)⟩
    | switchUnit =>
      refine ⟨ih.key, ih.dir, ?_, ?_, ?_⟩
      · intro t ht
        obtain ⟨u, hu, rfl⟩ := List.mem_map.1 ht
        obtain ⟨d, hd⟩ := ih.ok u hu
        have := switchTable_ok K s.cfg u _ _ hd
        rw [this.2.2.1]
        have h1 := this.1
        rwa [ih.key] at h1
      · intro hc t ht
        obtain ⟨u, hu, rfl⟩ := List.mem_map.1 ht
        obtain ⟨d, hd⟩ := ih.ok u hu
        have := switchTable_ok K s.cfg u _ _ hd
        rw [this.2.2.1]
        have hne : chosen h ≠ .desc := by
          rcases hc with hc | hc
          · exact hc
          · exact absurd hc (by simp [switchedSince])
        have h1 := this.2.1 (by rw [ih.key]; exact hne)
        rwa [ih.key, ih.dir] at h1
      · intro t ht
        simp only [← List.map_dropLast] at ht
        obtain ⟨u, hu, rfl⟩ := List.mem_map.1 ht
        obtain ⟨d, hd⟩ := ih.ok u (List.dropLast_subset _ hu)
        rw [(switchTable_ok K s.cfg u _ _ hd).2.2.1]
        exact ih.hier u hu
    | sort cfg past t c hc =>
      have hpast : ∀ u ∈ past, u.kind = .hier := fun u hu => ih.hier u ((mem_dropLast_concat u).2 hu)
      rw [sortPast_hier K _ _ past hpast]
      -- the column is one of the table
      have hcol : ∀ u ∈ past ++ [t], u.kind = .flat → c.name ≠ .total := by
        intro u hu hk
        rcases List.mem_append.1 hu with hu | hu
        · rw [hpast u hu] at hk; cases hk
        · simp only [List.mem_singleton] at hu; subst hu
          obtain ⟨d, ⟨⟨dt, ds, dd, he⟩, -, -⟩⟩ := ih.ok u (by simp)
          rw [hk] at he
          rw [he] at hc
          simp only [colsOf, List.mem_cons, List.not_mem_nil, or_false] at hc
          rcases hc with rfl | rfl <;> simp
      have hcf : ∀ u ∈ past ++ [t], columnFor u.kind c.name = c.name := by
        intro u hu
        have := hcol u hu
        cases hk : u.kind with
        | hier => rfl
        | flat => have := this hk; cases hn : c.name <;> simp_all [columnFor]
      have all : ∀ u ∈ past ++ [t], Ok K c.name (selectDir t c) (sortBy K c.name (selectDir t c) u) := by
        intro u hu
        obtain ⟨d, hd⟩ := ih.ok u hu
        exact (sortBy_ok K u _ _ _ _ hd (hcol u hu)).1
      have mem : ∀ v ∈ past.map (sortBy K c.name (selectDir t c)) ++ [sortBy K c.name (selectDir t c) t],
          ∃ u ∈ past ++ [t], v = sortBy K c.name (selectDir t c) u := by
        intro v hv
        rcases List.mem_append.1 hv with hv | hv
        · obtain ⟨u, hu, rfl⟩ := List.mem_map.1 hv
          exact ⟨u, by simp [hu], rfl⟩
        · simp only [List.mem_singleton] at hv
          exact ⟨t, by simp, hv⟩
      refine ⟨rfl, fun n => ?_, ?_, ?_, ?_⟩
      · simp only [direction]
        by_cases hn : n = c.name
        · rw [if_pos hn, if_pos hn.symm]
        · rw [if_neg hn, if_neg (fun e => hn e.symm)]; exact ih.dir n
      · intro v hv
        obtain ⟨u, hu, rfl⟩ := mem v hv
        have e : (sortBy K c.name (selectDir t c) u).kind = u.kind := rfl
        rw [e]
        simp only [chosen, hcf u hu]
        exact ⟨_, all u hu⟩
      · intro _ v hv
        obtain ⟨u, hu, rfl⟩ := mem v hv
        have e : (sortBy K c.name (selectDir t c) u).kind = u.kind := rfl
        rw [e]
        simp only [chosen, hcf u hu, direction, if_true]
        exact all u hu
      · intro v hv
        have := (mem_dropLast_concat v).1 hv
        obtain ⟨u, hu, rfl⟩ := List.mem_map.1 this
        exact hpast u hu

/-! ## The theorems -/

/-- **C67.** In every history, every profile on the screen, also those hidden by others, is sorted by the column that the
user chose last (a flat profile by self-duration instead of total duration), in the direction in which the user last saw
that column sorted, provided that this column is not the description or that the unit has not been switched since. -/
theorem c67_sorted_as_chosen (h : List (Op R)) (s : UI R) (hr : Reach K h s)
    (hyp : chosen h ≠ .desc ∨ switchedSince h = false) (t : Table R) (ht : t ∈ s.tables) :
    InOrder K (columnFor t.kind (chosen h)) (direction (columnFor t.kind (chosen h)) h) t.rows :=
  ((inv K h s hr).exact hyp t ht).2.1

/-- **C67.** Without this condition, the direction may be wrong but the column is right. -/
theorem c67_sorted_by_chosen (h : List (Op R)) (s : UI R) (hr : Reach K h s) (t : Table R) (ht : t ∈ s.tables) :
    ∃ d, InOrder K (columnFor t.kind (chosen h)) d t.rows := by
  obtain ⟨d, hd⟩ := (inv K h s hr).ok t ht
  exact ⟨d, hd.2.1⟩

/-- **C67.** Each table marks exactly the column by which it is sorted. -/
theorem c67_marked (h : List (Op R)) (s : UI R) (hr : Reach K h s) (t : Table R) (ht : t ∈ s.tables) :
    ∃ d, InOrder K (columnFor t.kind (chosen h)) d t.rows ∧
      (∀ c ∈ t.cols, c.mark = if c.name = columnFor t.kind (chosen h) then some d else none) ∧
      ∃ c ∈ t.cols, c.name = columnFor t.kind (chosen h) := by
  obtain ⟨d, ⟨⟨dt, ds, dd, he⟩, ho, hne⟩⟩ := (inv K h s hr).ok t ht
  refine ⟨d, ho, ?_, ?_⟩
  · intro c hc
    rw [he] at hc
    cases hk : t.kind <;> rw [hk] at hc <;>
      simp only [colsOf, List.mem_cons, List.not_mem_nil, or_false] at hc <;>
      rcases hc with rfl | rfl | rfl <;> rfl
  · rw [he]
    cases hk : t.kind <;> rw [hk] at hne <;> generalize hn : columnFor _ (chosen h) = n at hne ⊢ <;>
      cases n <;> simp_all [colsOf]

/-- **C67.** Selecting the column by which the top profile is sorted sorts it the other way round. -/
theorem c67_select_again_flips (h : List (Op R)) (cfg : Config) (past : List (Table R)) (t : Table R) (s' : UI R)
    (n : Name) (d : Dir) (hr : Reach K h ⟨cfg, past ++ [t]⟩) (st : Step K ⟨cfg, past ++ [t]⟩ (.sort n d) s')
    (c : Col) (hc : c ∈ t.cols) (d0 : Dir) (hm : c.mark = some d0) (hn : c.name = n) : d = d0.flip := by
  have key : ∀ (past' : List (Table R)) (t' : Table R), past' ++ [t'] = past ++ [t] → t' = t := by
    intro p t' e
    exact (List.append_inj' e rfl).2 |> fun e => by simpa using e
  generalize hs : (⟨cfg, past ++ [t]⟩ : UI R) = s at st
  generalize ho : (Op.sort n d : Op R) = o at st
  cases st with
  | «show» => cases ho
  | close => cases ho
  | switchUnit => cases ho
  | sort cfg' past' t' c' hc' =>
    cases ho
    simp only [UI.mk.injEq] at hs
    obtain ⟨-, hs⟩ := hs
    have ht : t' = t := key past' t' hs.symm
    subst ht
    obtain ⟨e, ⟨⟨dt, ds, dd, he⟩, -, -⟩⟩ := (inv K h _ hr).ok t' (by simp)
    rw [he] at hc hc'
    unfold selectDir
    rw [he]
    cases hk : t'.kind <;> rw [hk] at hc hc' <;>
      generalize hq : columnFor _ (chosen h) = q at hc hc' ⊢ <;> cases q <;>
      simp only [colsOf, List.mem_cons, List.not_mem_nil, or_false] at hc hc' <;>
      rcases hc with rfl | rfl | rfl <;> rcases hc' with rfl | rfl | rfl <;>
      simp_all [order, colsOf]

/-- **C67.** No operation loses, adds or changes rows: sorting and switching the unit only permute them. -/
theorem c67_rows_kept (h : List (Op R)) (s s' : UI R) (o : Op R) (hr : Reach K h s) (st : Step K s o s') :
    match o with
    | .show k rows => ∃ t, s'.tables = s.tables ++ [t] ∧ t.kind = k ∧ t.rows.Perm rows
    | .close => s'.tables = s.tables.dropLast
    | _ => List.Forall₂ (fun t t' : Table R => t'.kind = t.kind ∧ t'.rows.Perm t.rows) s.tables s'.tables := by
  have hi := inv K h s hr
  cases st with
  | «show» _ kind rows hh => exact ⟨_, rfl, (newTable_ok K s.cfg kind rows).2⟩
  | close => rfl
  | switchUnit =>
    simp only
    rw [List.forall₂_map_right_iff, List.forall₂_same]
    intro t ht
    obtain ⟨d, hd⟩ := hi.ok t ht
    exact (switchTable_ok K s.cfg t _ _ hd).2.2
  | sort cfg past t c hc =>
    simp only
    have hpast : ∀ u ∈ past, u.kind = .hier := fun u hu => hi.hier u ((mem_dropLast_concat u).2 hu)
    rw [sortPast_hier K _ _ past hpast,
      show past.map (sortBy K c.name (selectDir t c)) ++ [sortBy K c.name (selectDir t c) t]
        = (past ++ [t]).map (sortBy K c.name (selectDir t c)) by simp]
    rw [List.forall₂_map_right_iff, List.forall₂_same]
    intro u _
    exact ⟨rfl, sortRows_perm K _ _ _⟩

/-! ## The defect, and concrete cases -/

/-- Rows that are numbers: total duration, self-duration and description all compare as numbers. -/
def numbers : Rows Nat where
  le _ a b := decide (a ≤ b)
  total _ a b := by simp; omega
  trans _ a b c := by simp; omega

/-- Show a profile, sort it by description, once more (descending), switch the unit. -/
def badHistory : List (Op Nat) :=
  [.switchUnit, .sort .desc .dsc, .sort .desc .asc, .show .hier [2, 3, 1]]

theorem badHistory_reach : ∃ s, Reach numbers badHistory s ∧ s.tables.map (·.rows) = [[1, 2, 3]] := by
  refine ⟨_, .step (.step (.step (.step .init (.show _ .hier [2, 3, 1] (by simp)))
    (.sort Config.default [] (newTable numbers Config.default .hier [2, 3, 1]) ⟨.desc, .asc, none⟩ (by decide)))
    (.sort _ [] _ ⟨.desc, .asc, some .asc⟩ (by decide))) (.switchUnit _), by decide +kernel⟩

/-- **C67.** *Defect*: the condition on the description column cannot be dropped. Switching the unit sorts a profile in the
direction that its description column had when the profile was opened, not in the one that the user chose. -/
theorem c67_description_order_violated : ∃ (h : List (Op Nat)) (s : UI Nat), Reach numbers h s ∧
    ∃ t ∈ s.tables, ¬ InOrder numbers (columnFor t.kind (chosen h)) (direction (columnFor t.kind (chosen h)) h) t.rows := by
  obtain ⟨s, hr, hs⟩ := badHistory_reach
  refine ⟨_, s, hr, ?_⟩
  obtain ⟨cfg, tables⟩ := s
  match tables, hs, hr with
  | _ :: _ :: _, hs, hr => simp at hs
  | [t], hs, hr =>
    simp only [List.map_cons, List.map_nil, List.cons.injEq, and_true] at hs
    refine ⟨t, by simp, ?_⟩
    have e : columnFor t.kind (chosen badHistory) = .desc := by cases t.kind <;> rfl
    rw [e, hs]
    simp [InOrder, badHistory, direction, numbers]

/-- The same history without the switch satisfies the condition of the theorem. -/
example : ∃ s, Reach numbers badHistory.tail s ∧ (chosen badHistory.tail ≠ .desc ∨ switchedSince badHistory.tail = false) ∧
    s.tables.map (·.rows) = [[3, 2, 1]] :=
  ⟨_, .step (.step (.step .init (.show _ .hier [2, 3, 1] (by simp)))
    (.sort Config.default [] (newTable numbers Config.default .hier [2, 3, 1]) ⟨.desc, .asc, none⟩ (by decide)))
    (.sort _ [] _ ⟨.desc, .asc, some .asc⟩ (by decide)), by decide, by decide +kernel⟩

end Verif.Tui.Sorting
