/-
The numbers of the program: IEEE binary64 for both timestamps and durations, and what that means for the activity tree
(C05) when all times are whole numbers of microseconds.
-/
import Verif.Tree.Binary64

set_option autoImplicit false
set_option linter.unusedVariables false
set_option linter.unusedSimpArgs false
set_option linter.unusedSectionVars false

namespace Verif.Tree

/-- `f64` (clang-time-trace/src/ctf/mod.rs 121-125: `Timestamp` and `Duration` are `f64`), without infinities and NaN (which JSON cannot
express); every operation rounds to the nearest binary64 number. -/
structure F64 where
  val : ℚ
deriving DecidableEq

namespace F64

theorem val_injective : Function.Injective F64.val := by
  rintro ⟨a⟩ ⟨b⟩ h
  exact congrArg F64.mk h

instance : LinearOrder F64 := LinearOrder.lift' F64.val val_injective
instance : Zero F64 := ⟨⟨0⟩⟩
instance : One F64 := ⟨⟨1⟩⟩
instance : Add F64 := ⟨fun a b => ⟨Binary64.rnd (a.val + b.val)⟩⟩
instance : Sub F64 := ⟨fun a b => ⟨Binary64.rnd (a.val - b.val)⟩⟩

/-- `i as f64`: what serde does with a JSON integer that is expected to be an `f64`. -/
def ofInt (z : Int) : F64 := ⟨Binary64.rnd z⟩

theorem lt_iff (a b : F64) : a < b ↔ a.val < b.val := Iff.rfl
theorem le_iff (a b : F64) : a ≤ b ↔ a.val ≤ b.val := Iff.rfl

theorem ofInt_val (n : ℕ) (h : n ≤ 2 ^ 53) : (ofInt n).val = n := by
  have := Binary64.rnd_roundsWell (n : ℤ) (by omega) (by exact_mod_cast h)
  simpa [ofInt] using this

end F64

/-! ## Changing the types of times and durations -/

section map
variable {T T' D D' α : Type}

def Stat.mapTD (g : T → T') (f : D → D') (s : Stat T D α) : Stat T' D' α := ⟨s.act, g s.start, g s.stop, f s.dur⟩

def Node.mapTD (g : T → T') (f : D → D') (n : Node T D α) : Node T' D' α :=
  ⟨n.stat.mapTD g f, f n.selfDur, n.first, n.chLo, n.chHi, n.parent⟩

def Builder.mapTD (g : T → T') (f : D → D') (b : Builder T D α) : Builder T' D' α :=
  ⟨b.acts.map (Node.mapTD g f), b.children, g b.lastEnd⟩

def ATree.mapTD (g : T → T') (f : D → D') (t : ATree T D α) : ATree T' D' α :=
  ⟨t.acts.map (Node.mapTD g f), t.children, t.firstRoot⟩

def Err.mapTD (g : T → T') (f : D → D') : Err T D α → Err T' D' α
  | .order a b => .order (g a) (g b)
  | .overlap a b => .overlap (a.mapTD g f) (b.mapTD g f)
  | .panic => .panic

variable [LinearOrder T] [LinearOrder T'] [Zero D] [Add D] [Sub D] [Zero D'] [Add D'] [Sub D']
variable {g : T → T'} {f : D → D'} (G : ∀ a b, g a < g b ↔ a < b)
include G

theorem g_le (a b : T) : g a ≤ g b ↔ a ≤ b := by
  rw [← not_lt, ← not_lt, G]

theorem scan_mapTD (H : Hom f) (x : Stat T D α) (cur : Nat) : ∀ (n : Nat) (acts : List (Node T D α))
    (children : List Nat) (cdur : D) (first : Nat),
    scan (x.mapTD g f) cur (acts.map (Node.mapTD g f)) children (f cdur) first n =
      mapRes (Err.mapTD g f) (fun r => (r.1.map (Node.mapTD g f), r.2.1, f r.2.2.1, r.2.2.2))
        (scan x cur acts children cdur first n) := by
  intro n
  induction n using Nat.strong_induction_on with
  | _ n ih =>
    intro acts children cdur first
    cases n with
    | zero => rw [scan, scan]; rfl
    | succ k =>
      rw [scan, scan]
      simp only [List.getElem?_map]
      cases acts[k]? with
      | none => rfl
      | some cand =>
        simp only [Option.map_some, Node.mapTD, Stat.mapTD]
        by_cases h1 : cand.stat.start < x.start
        · by_cases h2 : cand.stat.stop ≤ x.start
          · simp only [G, g_le G, h1, h2, if_true]; rfl
          · simp only [G, g_le G, h1, h2, if_true, if_false]; rfl
        · by_cases h3 : cand.first ≤ k
          · simp only [G, h1, h3, if_true, if_false]
            have := ih cand.first (by omega) (acts.set k { cand with parent := nonZero cur }) (children ++ [k])
              (cdur + cand.stat.dur) cand.first
            rw [← this, List.map_set, H.add]
            rfl
          · simp only [G, h1, h3, if_false]; rfl

theorem insert_mapTD (H : Hom f) (b : Builder T D α) (x : Stat T D α) :
    insert (b.mapTD g f) (x.mapTD g f) = mapRes (Err.mapTD g f) (Builder.mapTD g f) (insert b x) := by
  unfold insert
  by_cases h : x.stop < b.lastEnd
  · rw [if_pos h, if_pos (by exact (G _ _).2 h)]; rfl
  · rw [if_neg h, if_neg (by exact fun h' => h ((G _ _).1 h'))]
    have hs := scan_mapTD G H x b.acts.length b.acts.length b.acts b.children 0 b.acts.length
    rw [H.zero] at hs
    simp only [Builder.mapTD, List.length_map]
    rw [hs]
    cases scan x b.acts.length b.acts b.children 0 b.acts.length b.acts.length with
    | error e => rfl
    | ok r =>
      obtain ⟨acts, children, cdur, first⟩ := r
      simp only [mapRes, Builder.mapTD, List.map_append, List.map_cons, List.map_nil, Node.mapTD, Stat.mapTD, H.sub]

theorem insertAll_mapTD (H : Hom f) (xs : List (Stat T D α)) : ∀ b : Builder T D α,
    insertAll (b.mapTD g f) (xs.map (Stat.mapTD g f)) = mapRes (Err.mapTD g f) (Builder.mapTD g f) (insertAll b xs) := by
  induction xs with
  | nil => intro b; rfl
  | cons x xs ih =>
    intro b
    simp only [List.map_cons, insertAll, insert_mapTD G H]
    cases insert b x with
    | error e => rfl
    | ok b' => exact ih b'

omit G in
theorem rootScan_mapTD (acts : List (Node T D α)) : ∀ (n : Nat) (children : List Nat),
    rootScan (acts.map (Node.mapTD g f)) children n =
      mapRes (Err.mapTD g f) id (rootScan acts children n) := by
  intro n
  induction n using Nat.strong_induction_on with
  | _ n ih =>
    intro children
    cases n with
    | zero => rw [rootScan, rootScan]; rfl
    | succ k =>
      rw [rootScan, rootScan]
      simp only [List.getElem?_map]
      cases acts[k]? with
      | none => rfl
      | some root =>
        simp only [Option.map_some, Node.mapTD]
        by_cases h3 : root.first ≤ k
        · rw [if_pos h3, if_pos h3]; exact ih root.first (by omega) _
        · rw [if_neg h3, if_neg h3]; rfl

theorem load_mapTD (H : Hom f) (tmin : T) (xs : List (Stat T D α)) :
    load (g tmin) (xs.map (Stat.mapTD g f)) = mapRes (Err.mapTD g f) (ATree.mapTD g f) (load tmin xs) := by
  unfold load
  have := insertAll_mapTD G H xs (empty tmin)
  rw [show Builder.mapTD g f (empty tmin : Builder T D α) = empty (g tmin) from rfl] at this
  rw [this]
  cases insertAll (empty tmin) xs with
  | error e => rfl
  | ok b =>
    simp only [mapRes, build, Builder.mapTD, List.length_map, rootScan_mapTD]
    cases rootScan b.acts b.children b.acts.length with
    | error e => rfl
    | ok children =>
      simp only [mapRes, id]
      by_cases h : b.acts.length = children.length
      · rw [if_pos h, if_pos h]; rfl
      · rw [if_neg h, if_neg h]; rfl

end map

/-! ## Whole microseconds -/

/-- An activity that starts and lasts a whole number of microseconds and ends before 2^53 µs (285 years); its end is what
the program computes (clang-time-trace/src/stats/activity/mod.rs 90-92). -/
def Whole {α : Type} (s : Stat F64 F64 α) : Prop :=
  ∃ a d : ℕ, s.start.val = a ∧ s.dur.val = d ∧ a + d ≤ 2 ^ 53 ∧ s.stop = s.start + s.dur

/-- The numbers that floats stand for. -/
def Stat.exact {α : Type} (s : Stat F64 F64 α) : Stat ℚ ℚ α := s.mapTD F64.val F64.val
def ATree.exact {α : Type} (t : ATree F64 F64 α) : ATree ℚ ℚ α := t.mapTD F64.val F64.val

/-- Floats as the numbers of `Tree/Float`. -/
def F64.fl (x : F64) : Fl Binary64.rnd := ⟨x.val⟩

theorem hom_fl : Hom F64.fl := ⟨rfl, fun _ _ => rfl, fun _ _ => rfl⟩

theorem load_fl {α : Type} {tmin : F64} {xs : List (Stat F64 F64 α)} {t : ATree F64 F64 α} (h : load tmin xs = .ok t) :
    load tmin.val (xs.map (Stat.mapTD F64.val F64.fl)) = .ok (t.mapTD F64.val F64.fl) := by
  rw [load_mapTD (g := F64.val) (fun a b => Iff.rfl) hom_fl, h]; rfl

theorem whole_fl {α : Type} {xs : List (Stat F64 F64 α)} (hx : ∀ a ∈ xs, Whole a) :
    ∀ a ∈ xs.map (Stat.mapTD F64.val F64.fl), WholeTimes Binary64.rnd a := by
  intro a ha
  obtain ⟨b, hb, rfl⟩ := List.mem_map.1 ha
  obtain ⟨s, d, h1, h2, h3, h4⟩ := hx b hb
  refine ⟨s, d, h1, h2, h3, ?_⟩
  show b.stop.val = _
  rw [h4]; rfl

/-- **C05** on the numbers of the program: the tree is the one that exact arithmetic gives. -/
theorem c05_f64 {α : Type} {tmin : F64} {xs : List (Stat F64 F64 α)} {t : ATree F64 F64 α} (hx : ∀ a ∈ xs, Whole a)
    (h : load tmin xs = .ok t) : load tmin.val (xs.map Stat.exact) = .ok t.exact := by
  have h2 := Binary64.c05_binary64 tmin.val _ _ (whole_fl hx) (load_fl h)
  rw [List.map_map] at h2
  have e : (t.mapTD F64.val F64.fl).mapDur Fl.val = t.exact := by
    simp only [ATree.mapDur, ATree.exact, ATree.mapTD, List.map_map]
    rfl
  rw [e] at h2
  exact h2

/-- Three activities, one of them inside another. -/
def fXs : List (Stat F64 F64 String) :=
  [⟨"Source", ⟨3⟩, ⟨8⟩, ⟨5⟩⟩, ⟨"Frontend", ⟨2⟩, ⟨11⟩, ⟨9⟩⟩, ⟨"Backend", ⟨11⟩, ⟨15⟩, ⟨4⟩⟩]

theorem fXs_whole : ∀ a ∈ fXs, Whole a := by
  intro a ha
  simp only [fXs, List.mem_cons, List.not_mem_nil, or_false] at ha
  rcases ha with rfl | rfl | rfl
  · exact ⟨3, 5, by norm_num, by norm_num, by norm_num, by decide +kernel⟩
  · exact ⟨2, 9, by norm_num, by norm_num, by norm_num, by decide +kernel⟩
  · exact ⟨11, 4, by norm_num, by norm_num, by norm_num, by decide +kernel⟩

theorem fXs_loads : ∃ t, load ⟨-1⟩ fXs = .ok t := by
  have h : (match load ⟨-1⟩ fXs with | .ok _ => true | .error _ => false) = true := by decide +kernel
  split at h
  · next t ht => exact ⟨t, ht⟩
  · simp at h

example : ∃ t, load (-1) (fXs.map Stat.exact) = .ok (ATree.exact t) := by
  obtain ⟨t, h⟩ := fXs_loads
  exact ⟨t, c05_f64 fXs_whole h⟩

end Verif.Tree
