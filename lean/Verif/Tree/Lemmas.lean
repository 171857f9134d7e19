import Verif.Tree.Model
import Mathlib.Data.List.Basic
import Mathlib.Data.List.Perm.Basic
import Mathlib.Data.List.Range
import Mathlib.Logic.Relation

/-! # Invariant of the activity tree builder -/

set_option autoImplicit false
set_option linter.unusedSectionVars false
set_option linter.unusedSimpArgs false

namespace Verif.Tree

variable {T D α : Type}

/-- `l` lists, from the right, the subtrees that tile the index interval `lo..hi`. -/
inductive Chain (F : Nat → Nat) : Nat → Nat → List Nat → Prop
  | nil (lo : Nat) : Chain F lo lo []
  | cons (k lo : Nat) (l : List Nat) : F k ≤ k → Chain F (F k) lo l → Chain F (k + 1) lo (k :: l)

theorem Chain.le {F : Nat → Nat} {hi lo : Nat} {l : List Nat} (h : Chain F hi lo l) : lo ≤ hi := by
  induction h with
  | nil => exact le_refl _
  | cons k lo l h1 h2 ih => omega

theorem Chain.mem_lt {F : Nat → Nat} {hi lo : Nat} {l : List Nat} (h : Chain F hi lo l) : ∀ k ∈ l, k < hi := by
  induction h with
  | nil => simp
  | cons k lo l h1 h2 ih =>
    intro j hj
    rcases List.mem_cons.1 hj with rfl | hj
    · omega
    · have := ih j hj; omega

theorem Chain.mem_ge {F : Nat → Nat} {hi lo : Nat} {l : List Nat} (h : Chain F hi lo l) :
    ∀ k ∈ l, F k ≤ k ∧ lo ≤ F k := by
  induction h with
  | nil => simp
  | cons k lo l h1 h2 ih =>
    intro j hj
    rcases List.mem_cons.1 hj with rfl | hj
    · exact ⟨h1, h2.le⟩
    · exact ih j hj

theorem Chain.congr {F G : Nat → Nat} {hi lo : Nat} {l : List Nat} (h : Chain F hi lo l)
    (hfg : ∀ i < hi, F i = G i) : Chain G hi lo l := by
  induction h with
  | nil => exact .nil _
  | cons k lo l h1 h2 ih =>
    have hk := hfg k (by omega)
    refine .cons k lo l (by omega) ?_
    rw [← hk]
    exact ih (fun i hi => hfg i (by omega))

theorem Chain.cover {F : Nat → Nat} {hi lo : Nat} {l : List Nat} (h : Chain F hi lo l) :
    ∀ j, (lo ≤ j ∧ j < hi) ↔ ∃ k ∈ l, F k ≤ j ∧ j ≤ k := by
  induction h with
  | nil => intro j; simp
  | cons k lo l h1 h2 ih =>
    intro j
    have hle := h2.le
    constructor
    · rintro ⟨ha, hb⟩
      by_cases hj : F k ≤ j
      · exact ⟨k, by simp, hj, by omega⟩
      · obtain ⟨k', hk', h'⟩ := (ih j).1 ⟨ha, by omega⟩
        exact ⟨k', by simp [hk'], h'⟩
    · rintro ⟨k', hk', h3, h4⟩
      rcases List.mem_cons.1 hk' with rfl | hk'
      · omega
      · have := (ih j).2 ⟨k', hk', h3, h4⟩; omega

theorem Chain.sorted {F : Nat → Nat} {hi lo : Nat} {l : List Nat} (h : Chain F hi lo l) :
    l.Pairwise (· > ·) := by
  induction h with
  | nil => exact .nil
  | cons k lo l h1 h2 ih =>
    refine List.pairwise_cons.2 ⟨fun j hj => ?_, ih⟩
    have := h2.mem_lt j hj
    omega

/-- First-related index function of a node list. -/
def firstOf (acts : List (Node T D α)) (i : Nat) : Nat := ((acts.map (·.first))[i]?).getD 0

theorem firstOf_some {acts : List (Node T D α)} {i : Nat} {nd : Node T D α} (h : acts[i]? = some nd) :
    firstOf acts i = nd.first := by
  simp [firstOf, h]

/-- Duration of the `k`-th activity. -/
def durOf [Zero D] (xs : List (Stat T D α)) (k : Nat) : D := ((xs[k]?).map (·.dur)).getD 0

/-- Effect of the parent updates of one `insert`. -/
def mark (cur : Nat) (pre : List Nat) (acts : List (Node T D α)) : List (Node T D α) :=
  acts.mapIdx (fun i nd => if i ∈ pre then { nd with parent := nonZero cur } else nd)

theorem mark_nil (cur : Nat) (acts : List (Node T D α)) : mark cur [] acts = acts := by
  apply List.ext_getElem?
  intro i
  simp [mark]

theorem mark_getElem? (cur : Nat) (pre : List Nat) (acts : List (Node T D α)) (i : Nat) :
    (mark cur pre acts)[i]? =
      (acts[i]?).map (fun nd => if i ∈ pre then { nd with parent := nonZero cur } else nd) := by
  simp [mark, List.getElem?_mapIdx]

theorem mark_set (cur : Nat) (pre : List Nat) (acts : List (Node T D α)) (k : Nat) (cand : Node T D α)
    (h : acts[k]? = some cand) :
    mark cur pre (acts.set k { cand with parent := nonZero cur }) = mark cur (k :: pre) acts := by
  apply List.ext_getElem?
  intro i
  rw [mark_getElem?, mark_getElem?]
  by_cases hik : i = k
  · subst hik
    have hlt : i < acts.length := by
      rw [List.getElem?_eq_some_iff] at h; exact h.1
    have he : acts[i] = cand := (List.getElem?_eq_some_iff.1 h).2
    simp [hlt, he]
  · rw [List.getElem?_set_ne (Ne.symm hik)]
    simp [hik]

theorem mark_stats (cur : Nat) (pre : List Nat) (acts : List (Node T D α)) :
    (mark cur pre acts).map (·.stat) = acts.map (·.stat) := by
  apply List.ext_getElem?
  intro i
  rw [List.getElem?_map, mark_getElem?, List.getElem?_map]
  cases acts[i]? with
  | none => rfl
  | some nd => simp only [Option.map_some]; split <;> rfl

theorem mark_firsts (cur : Nat) (pre : List Nat) (acts : List (Node T D α)) :
    (mark cur pre acts).map (·.first) = acts.map (·.first) := by
  apply List.ext_getElem?
  intro i
  rw [List.getElem?_map, mark_getElem?, List.getElem?_map]
  cases acts[i]? with
  | none => rfl
  | some nd => simp only [Option.map_some]; split <;> rfl

theorem mark_length (cur : Nat) (pre : List Nat) (acts : List (Node T D α)) :
    (mark cur pre acts).length = acts.length := by simp [mark]

variable [LinearOrder T] [Zero D] [Add D] [Sub D]

theorem scan_spec (x : Stat T D α) (cur : Nat) (F : Nat → Nat) (xs : List (Stat T D α)) :
    ∀ {hi lo0 : Nat} {roots : List Nat}, Chain F hi lo0 roots → lo0 = 0 →
    ∀ (acts : List (Node T D α)) (ch : List Nat) (d : D),
      acts.map (·.stat) = xs → (∀ i < hi, firstOf acts i = F i) → hi ≤ acts.length →
      ∃ pre rest lo, roots = pre ++ rest ∧ Chain F hi lo pre ∧ Chain F lo 0 rest ∧
        (∀ k ∈ pre, ∀ a : Stat T D α, xs[k]? = some a → x.start ≤ a.start) ∧
        ((scan x cur acts ch d hi hi =
            .ok (mark cur pre acts, ch ++ pre, pre.foldl (fun d k => d + durOf xs k) d, lo) ∧
          (∀ k ∈ rest.head?, ∀ a : Stat T D α, xs[k]? = some a → a.start < x.start ∧ a.stop ≤ x.start)) ∨
         (∃ (k : Nat) (a : Stat T D α), rest.head? = some k ∧ xs[k]? = some a ∧ a.start < x.start ∧ x.start < a.stop ∧
            scan x cur acts ch d hi hi = .error (.overlap a x))) := by
  intro hi lo0 roots h
  induction h with
  | nil lo =>
    rintro rfl acts ch d hst hF hlen
    refine ⟨[], [], 0, rfl, .nil 0, .nil 0, by simp, .inl ⟨?_, by simp⟩⟩
    simp [scan, mark_nil]
  | cons k lo l h1 h2 ih =>
    rintro rfl acts ch d hst hF hlen
    have hk : k < acts.length := by omega
    obtain ⟨cand, hcand⟩ : ∃ c, acts[k]? = some c := ⟨_, List.getElem?_eq_getElem hk⟩
    have hx : xs[k]? = some cand.stat := by rw [← hst, List.getElem?_map, hcand]; rfl
    have hfk : cand.first = F k := by rw [← hF k (by omega), firstOf_some hcand]
    by_cases hs : cand.stat.start < x.start
    · refine ⟨[], k :: l, k + 1, rfl, .nil _, .cons k 0 l h1 h2, by simp, ?_⟩
      by_cases he : cand.stat.stop ≤ x.start
      · refine .inl ⟨?_, ?_⟩
        · rw [scan]; simp [hcand, hs, he, mark_nil]
        · intro k' hk' a ha
          simp only [List.head?_cons, Option.mem_def, Option.some.injEq] at hk'
          subst hk'
          rw [hx] at ha; cases ha
          exact ⟨hs, he⟩
      · refine .inr ⟨k, cand.stat, rfl, hx, hs, not_le.1 he, ?_⟩
        rw [scan]; simp [hcand, hs, he]
    · have hle : cand.first ≤ k := by omega
      have hst' : (acts.set k { cand with parent := nonZero cur }).map (·.stat) = xs := by
        rw [← hst]
        apply List.ext_getElem?
        intro i
        rw [List.getElem?_map, List.getElem?_map, List.getElem?_set]
        split
        · rename_i h; subst h; simp [hk, (List.getElem?_eq_some_iff.1 hcand).2]
        · rfl
      have hF' : ∀ i < F k, firstOf (acts.set k { cand with parent := nonZero cur }) i = F i := by
        intro i hi
        rw [← hF i (by omega), firstOf, firstOf, List.getElem?_map, List.getElem?_map,
          List.getElem?_set_ne (by omega)]
      obtain ⟨pre, rest, lo', hroots, hc1, hc2, hpre, hres⟩ :=
        ih rfl (acts.set k { cand with parent := nonZero cur }) (ch ++ [k])
          (d + cand.stat.dur) hst' hF' (by simp; omega)
      have hscan : scan x cur acts ch d (k + 1) (k + 1) =
          scan x cur (acts.set k { cand with parent := nonZero cur }) (ch ++ [k])
          (d + cand.stat.dur) (F k) (F k) := by
        rw [scan]; simp [hcand, hs, hle, hfk]
        rw [hfk] at hle
        simp [hle]
      refine ⟨k :: pre, rest, lo', by simp [hroots], .cons k lo' pre h1 hc1, hc2, ?_, ?_⟩
      · intro j hj a ha
        rcases List.mem_cons.1 hj with rfl | hj
        · rw [hx] at ha; cases ha; exact not_lt.1 hs
        · exact hpre j hj a ha
      · rw [hscan]
        rcases hres with ⟨hr, hrest⟩ | hr
        · refine .inl ⟨?_, hrest⟩
          rw [hr, mark_set _ _ _ _ _ hcand]
          simp [durOf, hx]
        · exact .inr hr

/-- Builder invariant: `xs` are the activities inserted so far, `roots` the current root ids
(last first). -/
structure BInv (tmin : T) (b : Builder T D α) (xs : List (Stat T D α)) (roots : List Nat) :
    Prop where
  stats : b.acts.map (·.stat) = xs
  rootChain : Chain (firstOf b.acts) b.acts.length 0 roots
  node : ∀ (i : Nat) (nd : Node T D α), b.acts[i]? = some nd → nd.chLo ≤ nd.chHi ∧ nd.chHi ≤ b.children.length ∧
    Chain (firstOf b.acts) i nd.first ((b.children.take nd.chHi).drop nd.chLo) ∧
    nd.selfDur = nd.stat.dur -
      ((b.children.take nd.chHi).drop nd.chLo).foldl (fun d k => d + durOf xs k) 0
  flat : b.acts.flatMap (fun nd => (b.children.take nd.chHi).drop nd.chLo) = b.children
  perm : (b.children ++ roots).Perm (List.range b.acts.length)
  par : ∀ (i : Nat) (nd : Node T D α) (p : Nat), b.acts[i]? = some nd →
    (nd.parent = some p ↔ ∃ pn : Node T D α, b.acts[p]? = some pn ∧
      i ∈ (b.children.take pn.chHi).drop pn.chLo)
  sib : ∀ (i : Nat) (nd : Node T D α), b.acts[i]? = some nd →
    ((b.children.take nd.chHi).drop nd.chLo).Pairwise
      (fun k j => ∀ a c : Stat T D α, xs[k]? = some a → xs[j]? = some c → c.stop ≤ a.start)
  rootSib : roots.Pairwise
      (fun k j => ∀ a c : Stat T D α, xs[k]? = some a → xs[j]? = some c → c.stop ≤ a.start)
  nest : ∀ (i : Nat) (nd : Node T D α), b.acts[i]? = some nd → ∀ j, nd.first ≤ j → j ≤ i →
    ∀ c : Stat T D α, xs[j]? = some c → nd.stat.start ≤ c.start
  ends : xs.Pairwise (fun a c => a.stop ≤ c.stop)
  last : ∀ a ∈ xs, a.stop ≤ b.lastEnd
  lastIs : b.lastEnd = ((xs.getLast?).map (·.stop)).getD tmin
  noOverlap : xs.Pairwise (fun a c => ¬ (a.start < c.start ∧ c.start < a.stop))

theorem BInv.nil (tmin : T) : BInv tmin (empty tmin : Builder T D α) [] [] := by
  refine ⟨rfl, .nil 0, ?_, rfl, ?_, ?_, ?_, .nil, ?_, .nil, by simp, rfl, .nil⟩ <;>
    simp [empty]

/-- What a successful insertion does, and when insertion fails. -/
theorem insert_spec {tmin : T} {b : Builder T D α} {xs : List (Stat T D α)} {roots : List Nat} (h : BInv tmin b xs roots)
    (x : Stat T D α) :
    (x.stop < b.lastEnd ∧ insert b x = .error (.order b.lastEnd x.stop)) ∨
    (b.lastEnd ≤ x.stop ∧
      ∃ (k : Nat) (a : Stat T D α), xs[k]? = some a ∧ a.start < x.start ∧ x.start < a.stop ∧
        (∀ (j : Nat) (c : Stat T D α), k < j → xs[j]? = some c → x.start ≤ c.start) ∧
        insert b x = .error (.overlap a x)) ∨
    (b.lastEnd ≤ x.stop ∧ (∀ a ∈ xs, ¬ (a.start < x.start ∧ x.start < a.stop)) ∧
      ∃ b' roots', insert b x = .ok b' ∧ BInv tmin b' (xs ++ [x]) roots') := by
  by_cases ho : x.stop < b.lastEnd
  · exact .inl ⟨ho, by simp [insert, ho]⟩
  have ho' := not_lt.1 ho
  right
  have hlen : b.acts.length = xs.length := by rw [← h.stats]; simp
  obtain ⟨pre, rest, lo, hroots, hc1, hc2, hpre, hres⟩ :=
    scan_spec x b.acts.length (firstOf b.acts) xs h.rootChain rfl b.acts b.children 0
      h.stats (fun _ _ => rfl) (le_refl _)
  have hstat : ∀ (i : Nat) (nd : Node T D α), b.acts[i]? = some nd → xs[i]? = some nd.stat := by
    intro i nd hi; rw [← h.stats, List.getElem?_map, hi]; rfl
  -- everything tiled by `pre` starts no earlier than `x`
  have hcov : ∀ (j : Nat) (c : Stat T D α), lo ≤ j → xs[j]? = some c → x.start ≤ c.start := by
    intro j c hj hcj
    have hjn : j < b.acts.length := by
      rw [hlen]; exact (List.getElem?_eq_some_iff.1 hcj).1
    obtain ⟨k, hk, h1, h2⟩ := (hc1.cover j).1 ⟨hj, hjn⟩
    have hkn := hc1.mem_lt k hk
    obtain ⟨nd, hnd⟩ : ∃ c, b.acts[k]? = some c := ⟨_, List.getElem?_eq_getElem hkn⟩
    have e1 := hpre k hk _ (hstat k nd hnd)
    rw [firstOf_some hnd] at h1
    exact le_trans e1 (h.nest k nd hnd j h1 h2 c hcj)
  rcases hres with ⟨hr, hrest⟩ | ⟨k, a, hk, ha, h1, h2, hr⟩
  swap
  · left
    refine ⟨ho', k, a, ha, h1, h2, ?_, by simp [insert, ho, hr]⟩
    intro j c hkj hj
    refine hcov j c ?_ hj
    cases rest with
    | nil => simp at hk
    | cons k' rest' =>
      simp only [List.head?_cons, Option.some.injEq] at hk
      subst hk
      cases hc2
      omega
  right
  -- everything before `lo` stops no later than `x` starts
  have hbefore : ∀ (j : Nat) (c : Stat T D α), j < lo → xs[j]? = some c → c.stop ≤ x.start := by
    intro j c hj hcj
    cases rest with
    | nil => cases hc2; omega
    | cons k rest' =>
      cases hc2 with
      | cons _ _ _ hk1 hk2 =>
        have hkn : k < b.acts.length := by have := hc1.le; omega
        obtain ⟨nd, hnd⟩ : ∃ c, b.acts[k]? = some c := ⟨_, List.getElem?_eq_getElem hkn⟩
        have e := (hrest k (by simp) _ (hstat k nd hnd)).2
        rcases Nat.lt_or_ge j k with hjk | hjk
        · refine le_trans ?_ e
          have hx := hstat k nd hnd
          rw [List.getElem?_eq_some_iff] at hx hcj
          obtain ⟨hx1, hx2⟩ := hx
          obtain ⟨hj1, hj2⟩ := hcj
          have := List.pairwise_iff_getElem.1 h.ends j k hj1 hx1 hjk
          rw [hx2, hj2] at this
          exact this
        · have : j = k := by omega
          subst this
          rw [hstat j nd hnd] at hcj; cases hcj; exact e
  have hnoov : ∀ a ∈ xs, ¬ (a.start < x.start ∧ x.start < a.stop) := by
    intro a ha ⟨h1, h2⟩
    obtain ⟨j, hj⟩ := List.mem_iff_getElem?.1 ha
    rcases Nat.lt_or_ge j lo with hl | hl
    · exact absurd (hbefore j a hl hj) (not_le.2 h2)
    · exact absurd (hcov j a hl hj) (not_le.2 h1)
  refine ⟨ho', hnoov, _, b.acts.length :: rest, by
    simp only [insert, ho, hr, if_false]; rfl, ?_⟩
  -- the new node list
  set newNode : Node T D α :=
    { stat := x, selfDur := x.dur - pre.foldl (fun d k => d + durOf xs k) 0, first := lo,
      chLo := b.children.length, chHi := (b.children ++ pre).length, parent := none } with hnew
  set acts' := mark b.acts.length pre b.acts ++ [newNode] with hacts'
  have hget : ∀ (i : Nat) (nd : Node T D α), acts'[i]? = some nd →
      (i = b.acts.length ∧ nd = newNode) ∨
      (i < b.acts.length ∧ ∃ od, b.acts[i]? = some od ∧
        nd = if i ∈ pre then { od with parent := nonZero b.acts.length } else od) := by
    intro i nd hi
    rw [hacts'] at hi
    rcases Nat.lt_or_ge i b.acts.length with hl | hl
    · right
      rw [List.getElem?_append_left (by rw [mark_length]; exact hl), mark_getElem?] at hi
      refine ⟨hl, b.acts[i], List.getElem?_eq_getElem hl, ?_⟩
      rw [List.getElem?_eq_getElem hl] at hi
      simpa using hi.symm
    · left
      rw [List.getElem?_append_right (by rw [mark_length]; exact hl), mark_length] at hi
      have : i - b.acts.length = 0 := by
        by_contra hne
        obtain ⟨m, hm⟩ := Nat.exists_eq_succ_of_ne_zero hne
        rw [hm] at hi; simp at hi
      rw [this] at hi
      simp at hi
      exact ⟨by omega, hi.symm⟩
  have hgetnew : acts'[b.acts.length]? = some newNode := by
    rw [hacts', List.getElem?_append_right (by rw [mark_length]), mark_length]; simp
  have hgetold : ∀ (i : Nat) (od : Node T D α), b.acts[i]? = some od → acts'[i]? = some
      (if i ∈ pre then { od with parent := nonZero b.acts.length } else od) := by
    intro i od hi
    have hl := (List.getElem?_eq_some_iff.1 hi).1
    rw [hacts', List.getElem?_append_left (by rw [mark_length]; exact hl), mark_getElem?, hi]
    rfl
  have hfirst : ∀ i < b.acts.length, firstOf b.acts i = firstOf acts' i := by
    intro i hi
    rw [firstOf, firstOf, hacts', List.map_append, mark_firsts,
      List.getElem?_append_left (by simpa using hi)]
  have hxs' : ∀ i < b.acts.length, (xs ++ [x])[i]? = xs[i]? := by
    intro i hi
    rw [List.getElem?_append_left (by omega)]
  have hdur : ∀ i < b.acts.length, durOf (xs ++ [x]) i = durOf xs i := by
    intro i hi; rw [durOf, durOf, hxs' i hi]
  have hslice : ∀ hi lo, hi ≤ b.children.length →
      ((b.children ++ pre).take hi).drop lo = (b.children.take hi).drop lo := by
    intro hi lo hle
    rw [List.take_append_of_le_length hle]
  have hslicenew : ((b.children ++ pre).take (b.children ++ pre).length).drop b.children.length
      = pre := by rw [List.take_length, List.drop_left]
  have hfold : ∀ (l : List Nat), (∀ k ∈ l, k < b.acts.length) → ∀ d : D,
      l.foldl (fun d k => d + durOf xs k) d = l.foldl (fun d k => d + durOf (xs ++ [x]) k) d := by
    intro l
    induction l with
    | nil => intros; rfl
    | cons k l ih =>
      intro hl d
      simp only [List.foldl_cons]
      rw [hdur k (hl k (by simp)), ih (fun k hk => hl k (by simp [hk]))]
  have hcs : ∀ (i : Nat) (od : Node T D α), b.acts[i]? = some od →
      ∀ c ∈ (b.children.take od.chHi).drop od.chLo, c < i := fun i od hi =>
    (h.node i od hi).2.2.1.mem_lt
  have hidx : ∀ (i : Nat) (od : Node T D α), b.acts[i]? = some od → i < b.acts.length := fun i od hi =>
    (List.getElem?_eq_some_iff.1 hi).1
  have hnodup : (b.children ++ roots).Nodup := h.perm.nodup_iff.2 List.nodup_range
  have hpreroot : ∀ k ∈ pre, k ∈ roots := fun k hk => by rw [hroots]; simp [hk]
  have hlastx : (xs ++ [x]).getLast? = some x := by simp
  have hrel : ∀ (l : List Nat), (∀ k ∈ l, k < b.acts.length) →
      l.Pairwise (fun k j => ∀ a c : Stat T D α, xs[k]? = some a → xs[j]? = some c → c.stop ≤ a.start) →
      l.Pairwise (fun k j => ∀ a c : Stat T D α, (xs ++ [x])[k]? = some a → (xs ++ [x])[j]? = some c →
        c.stop ≤ a.start) := by
    intro l hl hp
    refine hp.imp_of_mem ?_
    intro k j hk hj hkj a c ha hc
    rw [hxs' k (hl k hk)] at ha
    rw [hxs' j (hl j hj)] at hc
    exact hkj a c ha hc
  have hrs := h.rootSib
  rw [hroots, List.pairwise_append] at hrs
  constructor
  · -- stats
    simp [hacts', mark_stats, h.stats, hnew]
  · -- rootChain
    have : acts'.length = b.acts.length + 1 := by simp [hacts', mark_length]
    rw [this]
    have hf : firstOf acts' b.acts.length = lo := by rw [firstOf_some hgetnew]
    refine .cons _ _ _ (by rw [hf]; exact hc1.le) ?_
    rw [hf]
    exact hc2.congr (fun i hi => hfirst i (by have := hc1.le; omega))
  · -- node
    intro i nd hi
    rcases hget i nd hi with ⟨rfl, rfl⟩ | ⟨hl, od, hod, rfl⟩
    · refine ⟨by simp [hnew], le_refl _, ?_, ?_⟩
      · show Chain _ _ _ (((b.children ++ pre).take (b.children ++ pre).length).drop _)
        rw [hslicenew]
        exact hc1.congr hfirst
      · show x.dur - _ = x.dur - List.foldl _ _
          (((b.children ++ pre).take (b.children ++ pre).length).drop _)
        rw [hslicenew, hfold pre hc1.mem_lt]
    · obtain ⟨h1, h2, h3, h4⟩ := h.node i od hod
      have key : od.chLo ≤ od.chHi ∧ od.chHi ≤ (b.children ++ pre).length ∧
          Chain (firstOf acts') i od.first (((b.children ++ pre).take od.chHi).drop od.chLo) ∧
          od.selfDur = od.stat.dur - (((b.children ++ pre).take od.chHi).drop od.chLo).foldl
            (fun d k => d + durOf (xs ++ [x]) k) 0 := by
        refine ⟨h1, by simp; omega, ?_, ?_⟩
        · rw [hslice _ _ h2]
          exact h3.congr (fun j hj => hfirst j (by omega))
        · rw [hslice _ _ h2, ← hfold _ (fun k hk => by have := h3.mem_lt k hk; omega)]
          exact h4
      split <;> exact key
  · -- flat
    show acts'.flatMap (fun nd => ((b.children ++ pre).take nd.chHi).drop nd.chLo) =
      b.children ++ pre
    rw [hacts', List.flatMap_append]
    have e1 : [newNode].flatMap (fun nd => ((b.children ++ pre).take nd.chHi).drop nd.chLo)
        = pre := by
      rw [List.flatMap_singleton]
      exact hslicenew
    rw [e1]
    congr 1
    refine Eq.trans ?_ h.flat
    rw [List.flatMap_def, List.flatMap_def]
    congr 1
    apply List.ext_getElem?
    intro i
    rw [List.getElem?_map, List.getElem?_map, mark_getElem?]
    cases hi : b.acts[i]? with
    | none => rfl
    | some od =>
      have h2 := (h.node i od hi).2.1
      have := hslice od.chHi od.chLo h2
      simp only [Option.map_some]
      split <;> simp [this]
  · -- perm
    have : acts'.length = b.acts.length + 1 := by simp [hacts', mark_length]
    rw [this, List.range_succ]
    have hp := h.perm
    rw [hroots] at hp
    have e : ((b.children ++ pre) ++ b.acts.length :: rest).Perm
        (b.acts.length :: (b.children ++ (pre ++ rest))) := by
      rw [← List.append_assoc]
      exact List.perm_middle
    refine e.trans ?_
    refine (List.Perm.cons _ hp).trans ?_
    exact (List.perm_append_singleton _ _).symm
  · -- par
    intro i nd p hi
    rcases hget i nd hi with ⟨rfl, rfl⟩ | ⟨hl, od, hod, rfl⟩
    · constructor
      · intro hp; simp [hnew] at hp
      · rintro ⟨pn, hpn, hmem⟩
        rcases hget p pn hpn with ⟨rfl, rfl⟩ | ⟨hl, pd, hpd, rfl⟩
        · rw [hslicenew] at hmem
          exact absurd (hc1.mem_lt _ hmem) (lt_irrefl _)
        · have h2 := (h.node p pd hpd).2.1
          have hm : b.acts.length ∈ (b.children.take pd.chHi).drop pd.chLo := by
            rw [← hslice _ _ h2]
            revert hmem; split <;> exact id
          have := hcs p pd hpd _ hm
          omega
    · by_cases hip : i ∈ pre
      · simp only [hip, if_true]
        have hnz : nonZero b.acts.length = some b.acts.length := by
          simp [nonZero]; intro h0; rw [h0] at hl; simp at hl
        have hinot : ∀ (q : Nat) (qd : Node T D α), b.acts[q]? = some qd →
            i ∉ (b.children.take qd.chHi).drop qd.chLo := by
          intro q qd hq hmem
          have : i ∈ b.children := List.mem_of_mem_take (List.mem_of_mem_drop hmem)
          exact (List.nodup_append.1 hnodup).2.2 i this i (hpreroot i hip) rfl
        rw [hnz]
        constructor
        · intro hp
          simp only [Option.some.injEq] at hp
          subst hp
          exact ⟨newNode, hgetnew, by rw [hslicenew]; exact hip⟩
        · rintro ⟨pn, hpn, hmem⟩
          rcases hget p pn hpn with ⟨rfl, rfl⟩ | ⟨hl, pd, hpd, rfl⟩
          · rfl
          · have h2 := (h.node p pd hpd).2.1
            have hm : i ∈ (b.children.take pd.chHi).drop pd.chLo := by
              rw [← hslice _ _ h2]
              revert hmem; split <;> exact id
            exact absurd hm (hinot p pd hpd)
      · simp only [hip, if_false]
        rw [h.par i od p hod]
        constructor
        · rintro ⟨pn, hpn, hmem⟩
          refine ⟨_, hgetold p pn hpn, ?_⟩
          have h2 := (h.node p pn hpn).2.1
          rw [← hslice _ _ h2] at hmem
          split <;> exact hmem
        · rintro ⟨pn, hpn, hmem⟩
          rcases hget p pn hpn with ⟨rfl, rfl⟩ | ⟨hl, pd, hpd, rfl⟩
          · rw [hslicenew] at hmem
            exact absurd hmem hip
          · refine ⟨pd, hpd, ?_⟩
            have h2 := (h.node p pd hpd).2.1
            rw [← hslice _ _ h2]
            revert hmem; split <;> exact id
  · -- sib
    intro i nd hi
    rcases hget i nd hi with ⟨rfl, rfl⟩ | ⟨hl, od, hod, rfl⟩
    · rw [hslicenew]
      exact hrel pre hc1.mem_lt hrs.1
    · have h2 := (h.node i od hod).2.1
      have key : (((b.children ++ pre).take od.chHi).drop od.chLo).Pairwise
          (fun k j => ∀ a c : Stat T D α, (xs ++ [x])[k]? = some a → (xs ++ [x])[j]? = some c →
            c.stop ≤ a.start) := by
        rw [hslice _ _ h2]
        exact hrel _ (fun k hk => by have := hcs i od hod k hk; omega) (h.sib i od hod)
      split <;> exact key
  · -- rootSib
    have hrestlt : ∀ k ∈ rest, k < lo := hc2.mem_lt
    have hlo := hc1.le
    refine List.pairwise_cons.2 ⟨?_, hrel rest (fun k hk => by
      have := hrestlt k hk; omega) hrs.2.1⟩
    intro j hj a c ha hc
    have hjlo := hrestlt j hj
    rw [hxs' j (by omega)] at hc
    have : a = x := by
      rw [List.getElem?_append_right (by omega), hlen] at ha
      simpa using ha.symm
    subst this
    exact hbefore j c hjlo hc
  · -- nest
    intro i nd hi j hj1 hj2 c hc
    rcases hget i nd hi with ⟨rfl, rfl⟩ | ⟨hl, od, hod, rfl⟩
    · rcases Nat.lt_or_ge j b.acts.length with hjl | hjl
      · rw [hxs' j hjl] at hc
        exact hcov j c hj1 hc
      · have : j = b.acts.length := by omega
        subst this
        have : c = x := by
          rw [List.getElem?_append_right (by omega), hlen] at hc
          simpa using hc.symm
        subst this
        exact le_refl _
    · rw [hxs' j (by omega)] at hc
      have key := h.nest i od hod j (by revert hj1; split <;> exact id) hj2 c hc
      split <;> exact key
  · -- ends
    refine List.pairwise_append.2 ⟨h.ends, by simp, ?_⟩
    intro a ha c hc
    simp only [List.mem_singleton] at hc
    subst hc
    exact le_trans (h.last a ha) ho'
  · -- last
    intro a ha
    rcases List.mem_append.1 ha with ha | ha
    · exact le_trans (h.last a ha) ho'
    · simp only [List.mem_singleton] at ha
      subst ha
      exact le_refl _
  · -- lastIs
    simp
  · -- noOverlap
    refine List.pairwise_append.2 ⟨h.noOverlap, by simp, ?_⟩
    intro a ha c hc
    simp only [List.mem_singleton] at hc
    subst hc
    exact hnoov a ha

theorem rootScan_spec (acts : List (Node T D α)) :
    ∀ {hi lo : Nat} {roots : List Nat}, Chain (firstOf acts) hi lo roots → lo = 0 → hi ≤ acts.length →
    ∀ ch, rootScan acts ch hi = .ok (ch ++ roots) := by
  intro hi lo roots h
  induction h with
  | nil lo => rintro rfl _ ch; simp [rootScan]
  | cons k lo l h1 h2 ih =>
    rintro rfl hlen ch
    have hk : k < acts.length := by omega
    obtain ⟨nd, hnd⟩ : ∃ c, acts[k]? = some c := ⟨_, List.getElem?_eq_getElem hk⟩
    have hf := firstOf_some hnd
    rw [rootScan]
    simp only [hnd]
    rw [← hf, if_pos h1, ih rfl (by omega)]
    simp

theorem build_spec {tmin : T} {b : Builder T D α} {xs : List (Stat T D α)} {roots : List Nat} (h : BInv tmin b xs roots) :
    build b = .ok ⟨b.acts, b.children ++ roots, b.children.length⟩ := by
  have := rootScan_spec b.acts h.rootChain rfl (le_refl _) b.children
  have hp := h.perm.length_eq
  rw [List.length_range] at hp
  rw [build, this]
  simp only
  rw [if_pos hp.symm]

/-- Every outcome of inserting a sequence of activities. -/
theorem insertAll_spec {tmin : T} (ys : List (Stat T D α)) : ∀ {b : Builder T D α} {xs : List (Stat T D α)} {roots : List Nat},
    BInv tmin b xs roots →
    (∃ b' roots', insertAll b ys = .ok b' ∧ BInv tmin b' (xs ++ ys) roots') ∨
    (∃ pre x post, ys = pre ++ x :: post ∧ ∃ b' roots', insertAll b pre = .ok b' ∧
      BInv tmin b' (xs ++ pre) roots' ∧
      ((x.stop < b'.lastEnd ∧ insertAll b ys = .error (.order b'.lastEnd x.stop)) ∨
       (b'.lastEnd ≤ x.stop ∧ ∃ (k : Nat) (a : Stat T D α), (xs ++ pre)[k]? = some a ∧ a.start < x.start ∧
          x.start < a.stop ∧
          (∀ (j : Nat) (c : Stat T D α), k < j → (xs ++ pre)[j]? = some c → x.start ≤ c.start) ∧
          insertAll b ys = .error (.overlap a x)))) := by
  induction ys with
  | nil => intro b xs roots h; exact .inl ⟨b, roots, rfl, by simpa using h⟩
  | cons y ys ih =>
    intro b xs roots h
    rcases insert_spec h y with ⟨h1, h2⟩ | ⟨h1, k, a, h2, h3, h4, h5, h6⟩ | ⟨h1, h2, b', r', h3, h4⟩
    · exact .inr ⟨[], y, ys, rfl, b, roots, rfl, by simpa using h,
        .inl ⟨h1, by simp [insertAll, h2]⟩⟩
    · exact .inr ⟨[], y, ys, rfl, b, roots, rfl, by simpa using h,
        .inr ⟨h1, k, a, by simpa using h2, h3, h4, by simpa using h5, by simp [insertAll, h6]⟩⟩
    · have e : insertAll b (y :: ys) = insertAll b' ys := by simp [insertAll, h3]
      rcases ih h4 with ⟨b'', r'', h5, h6⟩ | ⟨pre, x, post, h5, b'', r'', h6, h7, h8⟩
      · exact .inl ⟨b'', r'', by rw [e, h5], by simpa using h6⟩
      · refine .inr ⟨y :: pre, x, post, by simp [h5], b'', r'', by simp [insertAll, h3, h6],
          by simpa using h7, ?_⟩
        rw [e]
        simpa using h8

/-- A successfully loaded tree comes from a builder satisfying the invariant. -/
theorem load_inv {tmin : T} {xs : List (Stat T D α)} {t : ATree T D α} (h : load tmin xs = .ok t) :
    ∃ b roots, BInv tmin b xs roots ∧ t = ⟨b.acts, b.children ++ roots, b.children.length⟩ := by
  rcases insertAll_spec xs (BInv.nil (T := T) (D := D) (α := α) tmin) with
    ⟨b', r', h5, h6⟩ | ⟨pre, x, post, h5, b'', r'', h6, h7, h8⟩
  · refine ⟨b', r', by simpa using h6, ?_⟩
    rw [load, h5] at h
    simp only at h
    rw [build_spec h6] at h
    exact (Except.ok.inj h).symm
  · exfalso
    rcases h8 with ⟨_, h8⟩ | ⟨_, k, a, _, _, _, _, h8⟩ <;> simp [load, h8] at h

end Verif.Tree
