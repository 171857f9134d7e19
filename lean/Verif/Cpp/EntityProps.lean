/-
C37, C38, C53: proofs about the display of C++ entities.
-/
import Verif.Cpp.EntityDisplay
import Verif.Display.Bounded

set_option autoImplicit false
set_option linter.unusedVariables false
set_option linter.unusedSimpArgs false

namespace Verif.Cpp

/-! ## C38: the budget is restored -/

/-- A display routine that, started with a budget that is not negative, leaves
the budget as it found it, whether it succeeds or not, and only sets it to values
between zero and its initial value in between. -/
def Bal (w : W) : Prop := ∀ st : DSt, 0 ≤ st.budget →
  (w st).2.budget = st.budget ∧
  ∃ new, (w st).2.seen = st.seen ++ new ∧ ∀ b ∈ new, 0 ≤ b ∧ b ≤ st.budget

theorem Bal.done : Bal done := fun st _ => ⟨rfl, [], by simp [Cpp.done]⟩

theorem Bal.put (t : List Char) : Bal (put t) := by
  intro st _
  unfold Cpp.put
  rcases st.quota with _ | _ | n <;> exact ⟨rfl, [], by simp⟩

theorem Bal.seq {a b : W} (ha : Bal a) (hb : Bal b) : Bal (a ⨾ b) := by
  intro st h
  obtain ⟨h1, n1, h2, h3⟩ := ha st h
  unfold W.seq
  rcases hst : a st with ⟨_ | _, st'⟩
  · rw [hst] at h1 h2; exact ⟨h1, n1, h2, h3⟩
  · rw [hst] at h1 h2
    simp only at h1 h2 ⊢
    obtain ⟨k1, n2, k2, k3⟩ := hb st' (by omega)
    refine ⟨by omega, n1 ++ n2, by rw [k2, h2, List.append_assoc], ?_⟩
    intro x hx
    rcases List.mem_append.1 hx with hx | hx
    · exact h3 x hx
    · have := k3 x hx; omega

theorem Bal.ite {c : Prop} [Decidable c] {a b : W} (ha : Bal a) (hb : Bal b) :
    Bal (if c then a else b) := by split <;> assumption

theorem Bal.when {c : Bool} {a : W} (ha : Bal a) : Bal (W.when c a) := Bal.ite ha Bal.done

theorem Bal.guarded {a b : W} (ha : Bal a) (hb : Bal b) : Bal (W.guarded a b) := by
  intro st h
  unfold W.guarded
  by_cases hp : st.budget > 0
  · rw [if_pos hp]
    have := ha { st with budget := st.budget - 1, seen := st.seen ++ [st.budget - 1] } (by simp; omega)
    rcases hst : a { st with budget := st.budget - 1, seen := st.seen ++ [st.budget - 1] } with ⟨ok, st2⟩
    rw [hst] at this
    simp only at this ⊢
    obtain ⟨h1, new, h2, h3⟩ := this
    simp only [hst]
    refine ⟨by omega, [st.budget - 1] ++ new ++ [st2.budget + 1], by simp [h2], ?_⟩
    intro x hx
    simp only [List.append_assoc, List.cons_append, List.nil_append, List.mem_cons, List.mem_append,
      List.not_mem_nil, or_false] at hx
    rcases hx with hx | hx | hx
    · omega
    · have := h3 x hx; omega
    · omega
  · rw [if_neg hp]; exact hb st h

theorem Bal.ifCan {a b : W} (ha : Bal a) (hb : Bal b) : Bal (W.ifCan a b) := by
  intro st h
  unfold W.ifCan
  split
  · exact ha st h
  · exact hb st h

theorem Bal.slice {s : S} (l : Ast (.list s)) {items : W} (h : Bal items) : Bal (slice l items) :=
  Bal.seq (Bal.put _) (Bal.seq (Bal.guarded h (Bal.when (Bal.put _))) (Bal.put _))

theorem disp_bal {s : S} (e : Ast s) : ∀ c, Bal (disp c e) := by
  induction e <;> intro c <;> simp only [disp] <;>
    repeat (first
      | assumption
      | exact Bal.done
      | exact Bal.put _
      | apply Bal.seq
      | apply Bal.when
      | apply Bal.slice
      | apply Bal.guarded
      | apply Bal.ifCan
      | apply Bal.ite
      | solve_by_elim
      | split)

/-- What is displayed: an entity as returned by `parse_entity`, `none` being the
special entity `<unknown>` (lib.rs 217-224). -/
abbrev Entity := Option (Ast .ty)

/-- `CustomDisplay::display_impl for EntityView` (lib.rs 249-255). -/
def Entity.disp (e : Entity) : W :=
  match e with
  | some t => Cpp.disp .postfixUsage t
  | none => put (str "<unknown>")

/-- `recursion_depth for EntityView` (lib.rs 245-247). -/
def Entity.depth (e : Entity) : Nat :=
  match e with
  | some t => Cpp.depth t
  | none => 0

/-- **C38.** Displaying any C++ entity (or any part of one), from any display
state whose recursion budget is not negative and with a writer that may fail at
any point, leaves the recursion budget exactly as it was; and every value that the
budget takes in the meantime is between zero and the initial value. -/
theorem display_restores_budget {s : S} (e : Ast s) (c : Ctx) (st : DSt) (h : 0 ≤ st.budget) :
    (disp c e st).2.budget = st.budget ∧
    ∃ new, (disp c e st).2.seen = st.seen ++ new ∧ ∀ b ∈ new, 0 ≤ b ∧ b ≤ st.budget :=
  disp_bal e c st h

/-- **C38**, for entities as a whole and for sequences. -/
theorem entity_display_restores_budget (e : Entity) (st : DSt) (h : 0 ≤ st.budget) :
    (e.disp st).2.budget = st.budget ∧
    ∃ new, (e.disp st).2.seen = st.seen ++ new ∧ ∀ b ∈ new, 0 ≤ b ∧ b ≤ st.budget := by
  cases e with
  | none => exact Bal.put _ st h
  | some t => exact disp_bal t _ st h

/-! ## C37: the advertised depth -/

/-- A display routine whose output is the same from all states with a budget of
at least `d` (and with a writer that does not fail). -/
def Same (d : Nat) (w : W) : Prop := ∀ st st' : DSt, st.quota = none → st'.quota = none →
  (d : Int) ≤ st.budget → (d : Int) ≤ st'.budget →
  ∃ t, (w st).1 = true ∧ (w st').1 = true ∧ (w st).2.out = st.out ++ t ∧
    (w st').2.out = st'.out ++ t ∧ (w st).2.quota = none ∧ (w st').2.quota = none

theorem Same.mono {d d' : Nat} {w : W} (h : Same d w) (hd : d ≤ d') : Same d' w := by
  intro st st' h1 h2 h3 h4
  exact h st st' h1 h2 (by omega) (by omega)

theorem Same.done (d : Nat) : Same d done := by
  intro st st' h1 h2 h3 h4
  exact ⟨[], rfl, rfl, by simp [Cpp.done], by simp [Cpp.done], h1, h2⟩

theorem Same.put (d : Nat) (t : List Char) : Same d (put t) := by
  intro st st' h1 h2 h3 h4
  refine ⟨t, ?_⟩
  simp [Cpp.put, h1, h2]

theorem Same.seq {d : Nat} {a b : W} (ba : Bal a) (ha : Same d a) (hb : Same d b) :
    Same d (a ⨾ b) := by
  intro st st' h1 h2 h3 h4
  obtain ⟨t, k1, k2, k3, k4, k5, k6⟩ := ha st st' h1 h2 h3 h4
  have e1 := (ba st (by omega)).1
  have e2 := (ba st' (by omega)).1
  unfold W.seq
  rcases hst : a st with ⟨ok, s1⟩
  rcases hst' : a st' with ⟨ok', s2⟩
  rw [hst] at k1 k3 k5 e1
  rw [hst'] at k2 k4 k6 e2
  simp only at k1 k2 k3 k4 k5 k6 e1 e2
  subst k1; subst k2
  simp only
  obtain ⟨t', j1, j2, j3, j4, j5, j6⟩ := hb s1 s2 k5 k6 (by omega) (by omega)
  exact ⟨t ++ t', j1, j2, by rw [j3, k3, List.append_assoc], by rw [j4, k4, List.append_assoc], j5, j6⟩

theorem Same.ite {d : Nat} {c : Prop} [Decidable c] {a b : W} (ha : c → Same d a)
    (hb : ¬ c → Same d b) : Same d (if c then a else b) := by
  split
  · exact ha (by assumption)
  · exact hb (by assumption)

theorem Same.when {d : Nat} {c : Bool} {a : W} (ha : c = true → Same d a) : Same d (W.when c a) :=
  Same.ite ha fun _ => Same.done d

theorem Same.guarded {d : Nat} {a b : W} (ha : Same d a) : Same (d + 1) (W.guarded a b) := by
  intro st st' h1 h2 h3 h4
  have p1 : st.budget > 0 := by omega
  have p2 : st'.budget > 0 := by omega
  unfold W.guarded
  rw [if_pos p1, if_pos p2]
  exact ha { st with budget := st.budget - 1, seen := st.seen ++ [st.budget - 1] }
    { st' with budget := st'.budget - 1, seen := st'.seen ++ [st'.budget - 1] } h1 h2
    (by simp only; omega) (by simp only; omega)

/-- Guarding something that displays nothing. -/
theorem Same.guarded_done (d : Nat) : Same d (W.guarded Cpp.done Cpp.done) := by
  intro st st' h1 h2 h3 h4
  refine ⟨[], ?_⟩
  unfold W.guarded
  split <;> split <;> simp [Cpp.done, h1, h2]

theorem Same.ifCan_pos {d : Nat} {a b : W} (hd : 1 ≤ d) (ha : Same d a) : Same d (W.ifCan a b) := by
  intro st st' h1 h2 h3 h4
  unfold W.ifCan
  rw [if_pos (by omega), if_pos (by omega)]
  exact ha st st' h1 h2 h3 h4

theorem isNil_eq {s : S} {l : Ast (.list s)} (h : l.isNil = true) : l = .nil := by
  cases l with
  | nil => rfl
  | cons a l => cases h

/-- A sequence displays the same from its depth on. -/
theorem Same.slice {s : S} (l : Ast (.list s)) {d : Nat} (hl : depth l ≤ d)
    (h : ∀ d', d = d' + 1 → Same d' (disp .postfixUsage l)) :
    Same d (Cpp.slice l (disp .postfixUsage l)) := by
  refine Same.seq (Bal.put _) (Same.put _ _) (Same.seq (Bal.guarded (disp_bal _ _) (Bal.when (Bal.put _))) ?_ (Same.put _ _))
  cases hn : l.isNil with
  | true =>
    have := isNil_eq hn
    subst this
    simp only [disp, W.when]
    exact Same.guarded_done d
  | false =>
    have hpos : 1 ≤ depth l := by
      cases l with
      | nil => cases hn
      | cons a l => simp only [depth]; omega
    obtain ⟨d', rfl⟩ : ∃ d', d = d' + 1 := ⟨d - 1, by omega⟩
    exact Same.guarded (h d' rfl)

/-- Entities in which no name is rooted without having scopes (like `::x`), and no
function signature is variadic without having parameters (like `f(...)`). -/
def Regular : {s : S} → Ast s → Prop
  | _, .nil => True
  | _, .cons a l => Regular a ∧ Regular l
  | _, .none => True
  | _, .some a => Regular a
  | _, .ty attrs cv simple decl => Regular attrs ∧ Regular simple ∧ Regular decl
  | _, .stId i => Regular i
  | _, .stLegacy _ => True
  | _, .stAuto _ => True
  | _, .idExpr p u => Regular p ∧ Regular u
  | _, .path rooted scopes => ¬ (rooted = true ∧ scopes.isNil = true) ∧ Regular scopes
  | _, .scope u sg => Regular u ∧ Regular sg
  | _, .named _ _ tp => Regular tp
  | _, .opId o tp => Regular o ∧ Regular tp
  | _, .decltype v => Regular v
  | _, .anonId a => Regular a
  | _, .tpList l => Regular l
  | _, .tpVoid => True
  | _, .tpTy t => Regular t
  | _, .tpVal v => Regular v
  | _, .clangLambda _ => True
  | _, .clangOther _ _ => True
  | _, .libLambda sg _ => Regular sg
  | _, .libUnnamed _ => True
  | _, .arith _ => True
  | _, .callIndex _ => True
  | _, .customLit _ => True
  | _, .newDelete _ _ => True
  | _, .coAwait => True
  | _, .conversion t => Regular t
  | _, .sig _ params variadic _ _ noexcept trailing =>
    ¬ (variadic = true ∧ params.isNil = true) ∧ Regular params ∧ Regular noexcept ∧ Regular trailing
  | _, .dCv _ => True
  | _, .dPtr p _ _ => Regular p
  | _, .dRef _ => True
  | _, .dArr v => Regular v
  | _, .dFun sg => Regular sg
  | _, .dParen d => Regular d
  | _, .dVec v => Regular v
  | _, .value h trailer => Regular h ∧ Regular trailer
  | _, .hLit _ => True
  | _, .hParen v => Regular v
  | _, .hUnary o v => Regular o ∧ Regular v
  | _, .hNew n => Regular n
  | _, .hId i => Regular i
  | _, .hEllipsis => True
  | _, .hSizeOf t => Regular t
  | _, .hDeclVal t => Regular t
  | _, .aIndex v => Regular v
  | _, .aCall args => Regular args
  | _, .aBinary o v => Regular o ∧ Regular v
  | _, .aTernary v w => Regular v ∧ Regular w
  | _, .aMember u => Regular u
  | _, .aPostfix o => Regular o
  | _, .aEllipsis => True
  | _, .args l => Regular l
  | _, .nxNone => True
  | _, .nxSome v => Regular v
  | _, .newE _ placement t constructor => Regular placement ∧ Regular t ∧ Regular constructor

/-- The items of a sequence are displayed one level below the sequence. -/
def S.lift : S → Nat
  | .list _ => 1
  | .opt s => s.lift
  | _ => 0

theorem S.lift_le (s : S) : s.lift ≤ 1 := by
  induction s <;> simp_all [S.lift]

/-- Side goals about balance. -/
macro "bal" : tactic => `(tactic|
  repeat (first
    | exact disp_bal _ _
    | exact Bal.done
    | exact Bal.put _
    | apply Bal.seq
    | apply Bal.when
    | apply Bal.slice
    | apply Bal.guarded
    | apply Bal.ifCan
    | apply Bal.ite
    | split))

theorem depth_pos_of_not_nil {s : S} {l : Ast (.list s)} (h : l.isNil = false) : 1 ≤ depth l := by
  cases l with
  | nil => cases h
  | cons a l => simp only [depth]; omega

theorem same_path {rooted : Bool} {scopes : Ast (.list .scope)} {k d : Nat}
    (hk : k = 0 → ¬ (rooted = true ∧ scopes.isNil = true)) (hd : depth scopes + k ≤ d)
    (ih : ∀ d', depth scopes + k ≤ d' + 1 → Same d' (disp .postfixUsage scopes)) (c : Ctx) :
    Same d (disp c (.path rooted scopes)) := by
  simp only [disp]
  have hslice : Same d (slice scopes (disp .postfixUsage scopes)) :=
    Same.slice scopes (by omega) (fun d' h => ih d' (by omega))
  by_cases h0 : 1 ≤ d
  · exact Same.ifCan_pos h0 (Same.seq (Bal.when (Bal.put _)) (Same.when fun _ => Same.put _ _) hslice)
  · have hd0 : d = 0 := by omega
    subst hd0
    have hk0 : k = 0 := by omega
    have hn : scopes.isNil = true := by
      by_contra hn
      have := depth_pos_of_not_nil (l := scopes) (by simpa using hn)
      omega
    have hr : rooted = false := by
      by_contra hr
      exact hk hk0 ⟨by simpa using hr, hn⟩
    subst hr
    have := isNil_eq hn
    subst this
    have key : ∀ st : DSt, st.quota = none →
        ((W.when false (put (str "::")) ⨾ slice (.nil : Ast (.list .scope)) (disp .postfixUsage (.nil : Ast (.list .scope)))).ifCan
          (W.when (!(Ast.nil : Ast (.list .scope)).isNil) (put (dots ++ str "::"))) st).1 = true ∧
        ((W.when false (put (str "::")) ⨾ slice (.nil : Ast (.list .scope)) (disp .postfixUsage (.nil : Ast (.list .scope)))).ifCan
          (W.when (!(Ast.nil : Ast (.list .scope)).isNil) (put (dots ++ str "::"))) st).2.out = st.out ∧
        ((W.when false (put (str "::")) ⨾ slice (.nil : Ast (.list .scope)) (disp .postfixUsage (.nil : Ast (.list .scope)))).ifCan
          (W.when (!(Ast.nil : Ast (.list .scope)).isNil) (put (dots ++ str "::"))) st).2.quota = none := by
      intro st hq
      unfold W.ifCan
      split
      · rename_i hb
        simp [W.when, W.seq, slice, put, W.guarded, done, disp, S.hdr, S.trailer, hq, hb]
      · simp [W.when, Ast.isNil, done, hq]
    intro st st' h1 h2 h3 h4
    obtain ⟨a1, a2, a3⟩ := key st h1
    obtain ⟨b1, b2, b3⟩ := key st' h2
    exact ⟨[], a1, b1, by rw [a2, List.append_nil], by rw [b2, List.append_nil], a3, b3⟩

theorem same_variadic {variadic : Bool} {params : Ast (.list .ty)} {k d : Nat}
    (hk : k = 0 → ¬ (variadic = true ∧ params.isNil = true)) (hd : depth params + k ≤ d) :
    Same d (W.ifCan (W.when variadic (put (str ", ..."))) done) := by
  by_cases h0 : 1 ≤ d
  · exact Same.ifCan_pos h0 (Same.when fun _ => Same.put _ _)
  · have hn : params.isNil = true := by
      by_contra hn
      have := depth_pos_of_not_nil (l := params) (by simpa using hn)
      omega
    have hr : variadic = false := by
      by_contra hr
      exact hk (by omega) ⟨by simpa using hr, hn⟩
    subst hr
    intro st st' h1 h2 h3 h4
    refine ⟨[], ?_⟩
    have key : ∀ st : DSt, W.ifCan (W.when false (put (str ", ..."))) done st = (true, st) := by
      intro st
      unfold W.ifCan
      split <;> rfl
    simp [key, h1, h2]

theorem same_sig {abi : Option Ident} {params : Ast (.list .ty)} {variadic : Bool} {cv : CV}
    {ref : Ref} {noexcept : Ast .noexc} {trailing : Ast (.opt .ty)} {k : Nat} (c : Ctx) (d : Nat)
    (ih1 : ∀ c d, (k = 0 → Regular params) → depth params + k ≤ d + 1 → Same d (disp c params))
    (ih2 : ∀ c d, (k = 0 → Regular noexcept) → depth noexcept + k ≤ d → Same d (disp c noexcept))
    (ih3 : ∀ c d, (k = 0 → Regular trailing) → depth trailing + k ≤ d → Same d (disp c trailing))
    (hk : k = 0 → Regular (.sig abi params variadic cv ref noexcept trailing))
    (hd : depth (.sig abi params variadic cv ref noexcept trailing) + k ≤ d) :
    Same d (disp c (.sig abi params variadic cv ref noexcept trailing)) := by
  simp only [depth] at hd
  simp only [disp]
  refine Same.seq (by bal) ?_ (Same.seq (by bal) ?_ (Same.seq (by bal) ?_ (Same.seq (by bal) (Same.put _ _)
    (Same.seq (by bal) ?_ (Same.seq (by bal) ?_ (Same.seq (by bal) ?_ ?_))))))
  · cases abi
    · exact Same.done _
    · exact Same.put _ _
  · exact Same.slice params (by omega) fun d' h => ih1 _ _ (fun h => (hk h).2.1) (by omega)
  · exact same_variadic (fun h => (hk h).1) (by omega : depth params + k ≤ d)
  · exact Same.when fun _ => Same.put _ _
  · exact Same.when fun _ => Same.put _ _
  · exact ih2 _ _ (fun h => (hk h).2.2.1) (by omega)
  · refine Same.ite (fun _ => Same.done _) fun _ => Same.seq (by bal) (Same.put _ _) ?_
    exact ih3 _ _ (fun h => (hk h).2.2.2) (by omega)

theorem same_clangOther (c : Ctx) (d : Nat) (id : Option Ident) (loc : Option Loc) :
    Same d (disp c (.clangOther id loc)) := by
  simp only [disp]
  refine Same.seq (by bal) (Same.put _ _) (Same.seq (by bal) ?_ (Same.seq (by bal) ?_ (Same.put _ _)))
  · cases id <;> cases loc <;> first | exact Same.done _ | exact Same.put _ _
  · cases loc <;> first | exact Same.done _ | exact Same.put _ _

theorem same_arith (c : Ctx) (d : Nat) (o : ArithOp) : Same d (disp c (.arith o)) := by
  simp only [disp]
  refine Same.seq (by bal) (Same.when fun _ => Same.put _ _) ?_
  cases o <;> simp only <;>
    first
      | exact Same.put _ _
      | exact Same.seq (by bal) (Same.when fun _ => Same.put _ _)
          (Same.seq (by bal) (Same.put _ _) (Same.when fun _ => Same.put _ _))

attribute [local irreducible] disp slice W.seq W.when put done W.guarded W.ifCan

/-- The structural steps of `same_disp`. -/
macro "same_step" : tactic => `(tactic|
  repeat' (first
    | exact Same.done _
    | exact Same.put _ _
    | (refine Same.seq (by bal) ?_ ?_)
    | (refine Same.when fun _ => ?_)
    | (refine Same.ite (fun _ => ?_) fun _ => ?_)
    | (refine Same.slice _ (by omega) fun d' h => ?_)))

set_option maxHeartbeats 2000000 in
/-- The display does not depend on the budget from the depth on (plus one if the
entity is not regular). -/
theorem same_disp {s : S} (e : Ast s) (k : Nat) : ∀ (c : Ctx) (d : Nat), (k = 0 → Regular e) →
    depth e + k ≤ d + s.lift → Same d (disp c e) := by
  induction e with
  | path rooted scopes ih =>
    intro c d hk hd
    simp only [depth, S.lift, Nat.add_zero] at hd
    exact same_path (fun h => (hk h).1) hd
      (fun d' h => ih .postfixUsage d' (fun h => (hk h).2) (by simp only [S.lift]; omega)) c
  | cons a l iha ihl =>
    rename_i s
    intro c d hk hd
    simp only [depth, S.lift] at hd
    simp only [disp]
    refine Same.seq (by bal) (iha _ _ (fun h => (hk h).1) (by omega)) (Same.seq (by bal) ?_ ?_)
    · exact Same.when fun _ => Same.put _ _
    · exact ihl _ _ (fun h => (hk h).2) (by simp only [S.lift]; omega)
  | some a ih =>
    intro c d hk hd
    simp only [depth, S.lift] at hd
    simp only [disp]
    exact ih c d hk hd
  | sig abi params variadic cv ref noexcept trailing ih1 ih2 ih3 =>
    intro c d hk hd
    exact same_sig c d ih1 ih2 ih3 hk hd
  | tpVoid =>
    intro c d hk hd
    simp only [depth, S.lift, Nat.add_zero] at hd
    simp only [disp]
    obtain ⟨d', rfl⟩ : ∃ d', d = d' + 1 := ⟨d - 1, by omega⟩
    exact Same.guarded (Same.put _ _)
  | clangOther id loc => exact fun c d _ _ => same_clangOther c d id loc
  | arith o => exact fun c d _ _ => same_arith c d o
  | nil =>
    intro c d hk hd
    simp only [depth, S.lift, Nat.add_zero] at hd
    simp only [disp]
    same_step
  | none =>
    intro c d hk hd
    simp only [depth, S.lift, Nat.add_zero] at hd
    simp only [disp]
    same_step
  | ty attrs cv simple decl ih0 ih1 ih2 =>
    intro c d hk hd
    simp only [depth, S.lift, Nat.add_zero] at hd
    simp only [disp]
    same_step
    all_goals first | exact ih0 _ _ (fun h => (hk h).1) (by simp only [S.lift]; omega) | exact ih1 _ _ (fun h => (hk h).2.1) (by simp only [S.lift]; omega) | exact ih2 _ _ (fun h => (hk h).2.2) (by simp only [S.lift]; omega)
  | stId i ih0 =>
    intro c d hk hd
    simp only [depth, S.lift, Nat.add_zero] at hd
    simp only [disp]
    same_step
    all_goals first | exact ih0 _ _ (fun h => (hk h)) (by simp only [S.lift]; omega)
  | stLegacy n =>
    intro c d hk hd
    simp only [depth, S.lift, Nat.add_zero] at hd
    simp only [disp]
    same_step
  | stAuto n =>
    intro c d hk hd
    simp only [depth, S.lift, Nat.add_zero] at hd
    simp only [disp]
    same_step
  | idExpr p u ih0 ih1 =>
    intro c d hk hd
    simp only [depth, S.lift, Nat.add_zero] at hd
    simp only [disp]
    same_step
    all_goals first | exact ih0 _ _ (fun h => (hk h).1) (by simp only [S.lift]; omega) | exact ih1 _ _ (fun h => (hk h).2) (by simp only [S.lift]; omega)
  | scope u sg ih0 ih1 =>
    intro c d hk hd
    simp only [depth, S.lift, Nat.add_zero] at hd
    simp only [disp]
    same_step
    all_goals first | exact ih0 _ _ (fun h => (hk h).1) (by simp only [S.lift]; omega) | exact ih1 _ _ (fun h => (hk h).2) (by simp only [S.lift]; omega)
  | named ds id tp ih0 =>
    intro c d hk hd
    simp only [depth, S.lift, Nat.add_zero] at hd
    simp only [disp]
    same_step
    all_goals first | exact ih0 _ _ (fun h => (hk h)) (by simp only [S.lift]; omega)
  | opId o tp ih0 ih1 =>
    intro c d hk hd
    simp only [depth, S.lift, Nat.add_zero] at hd
    simp only [disp]
    same_step
    all_goals first | exact ih0 _ _ (fun h => (hk h).1) (by simp only [S.lift]; omega) | exact ih1 _ _ (fun h => (hk h).2) (by simp only [S.lift]; omega)
  | decltype v ih0 =>
    intro c d hk hd
    simp only [depth, S.lift, Nat.add_zero] at hd
    simp only [disp]
    same_step
    all_goals first | exact ih0 _ _ (fun h => (hk h)) (by simp only [S.lift]; omega)
  | anonId a ih0 =>
    intro c d hk hd
    simp only [depth, S.lift, Nat.add_zero] at hd
    simp only [disp]
    same_step
    all_goals first | exact ih0 _ _ (fun h => (hk h)) (by simp only [S.lift]; omega)
  | tpList l ih0 =>
    intro c d hk hd
    simp only [depth, S.lift, Nat.add_zero] at hd
    simp only [disp]
    same_step
    all_goals first | exact ih0 _ _ (fun h => (hk h)) (by simp only [S.lift]; omega)
  | tpTy t ih0 =>
    intro c d hk hd
    simp only [depth, S.lift, Nat.add_zero] at hd
    simp only [disp]
    same_step
    all_goals first | exact ih0 _ _ (fun h => (hk h)) (by simp only [S.lift]; omega)
  | tpVal v ih0 =>
    intro c d hk hd
    simp only [depth, S.lift, Nat.add_zero] at hd
    simp only [disp]
    same_step
    all_goals first | exact ih0 _ _ (fun h => (hk h)) (by simp only [S.lift]; omega)
  | clangLambda l =>
    intro c d hk hd
    simp only [depth, S.lift, Nat.add_zero] at hd
    simp only [disp]
    same_step
  | libLambda sg id ih0 =>
    intro c d hk hd
    simp only [depth, S.lift, Nat.add_zero] at hd
    simp only [disp]
    same_step
    all_goals first | exact ih0 _ _ (fun h => (hk h)) (by simp only [S.lift]; omega)
  | libUnnamed id =>
    intro c d hk hd
    simp only [depth, S.lift, Nat.add_zero] at hd
    simp only [disp]
    same_step
  | callIndex b =>
    intro c d hk hd
    simp only [depth, S.lift, Nat.add_zero] at hd
    simp only [disp]
    same_step
  | customLit id =>
    intro c d hk hd
    simp only [depth, S.lift, Nat.add_zero] at hd
    simp only [disp]
    same_step
  | newDelete a b =>
    intro c d hk hd
    simp only [depth, S.lift, Nat.add_zero] at hd
    simp only [disp]
    same_step
  | coAwait =>
    intro c d hk hd
    simp only [depth, S.lift, Nat.add_zero] at hd
    simp only [disp]
    same_step
  | conversion t ih0 =>
    intro c d hk hd
    simp only [depth, S.lift, Nat.add_zero] at hd
    simp only [disp]
    same_step
    all_goals first | exact ih0 _ _ (fun h => (hk h)) (by simp only [S.lift]; omega)
  | dCv cv =>
    intro c d hk hd
    simp only [depth, S.lift, Nat.add_zero] at hd
    simp only [disp]
    same_step
  | dPtr p cv r ih0 =>
    intro c d hk hd
    simp only [depth, S.lift, Nat.add_zero] at hd
    simp only [disp]
    same_step
    all_goals first | exact ih0 _ _ (fun h => (hk h)) (by simp only [S.lift]; omega)
  | dRef r =>
    intro c d hk hd
    simp only [depth, S.lift, Nat.add_zero] at hd
    simp only [disp]
    same_step
  | dArr v ih0 =>
    intro c d hk hd
    simp only [depth, S.lift, Nat.add_zero] at hd
    simp only [disp]
    same_step
    all_goals first | exact ih0 _ _ (fun h => (hk h)) (by simp only [S.lift]; omega)
  | dFun sg ih0 =>
    intro c d hk hd
    simp only [depth, S.lift, Nat.add_zero] at hd
    simp only [disp]
    same_step
    all_goals first | exact ih0 _ _ (fun h => (hk h)) (by simp only [S.lift]; omega)
  | dParen dd ih0 =>
    intro c d hk hd
    simp only [depth, S.lift, Nat.add_zero] at hd
    simp only [disp]
    same_step
    all_goals first | exact ih0 _ _ (fun h => (hk h)) (by simp only [S.lift]; omega)
  | dVec v ih0 =>
    intro c d hk hd
    simp only [depth, S.lift, Nat.add_zero] at hd
    simp only [disp]
    same_step
    all_goals first | exact ih0 _ _ (fun h => (hk h)) (by simp only [S.lift]; omega)
  | value h t ih0 ih1 =>
    intro c d hk hd
    simp only [depth, S.lift, Nat.add_zero] at hd
    simp only [disp]
    same_step
    all_goals first | exact ih0 _ _ (fun h => (hk h).1) (by simp only [S.lift]; omega) | exact ih1 _ _ (fun h => (hk h).2) (by simp only [S.lift]; omega)
  | hLit l =>
    intro c d hk hd
    simp only [depth, S.lift, Nat.add_zero] at hd
    simp only [disp]
    same_step
  | hParen v ih0 =>
    intro c d hk hd
    simp only [depth, S.lift, Nat.add_zero] at hd
    simp only [disp]
    same_step
    all_goals first | exact ih0 _ _ (fun h => (hk h)) (by simp only [S.lift]; omega)
  | hUnary o v ih0 ih1 =>
    intro c d hk hd
    simp only [depth, S.lift, Nat.add_zero] at hd
    simp only [disp]
    same_step
    all_goals first | exact ih0 _ _ (fun h => (hk h).1) (by simp only [S.lift]; omega) | exact ih1 _ _ (fun h => (hk h).2) (by simp only [S.lift]; omega)
  | hNew n ih0 =>
    intro c d hk hd
    simp only [depth, S.lift, Nat.add_zero] at hd
    simp only [disp]
    same_step
    all_goals first | exact ih0 _ _ (fun h => (hk h)) (by simp only [S.lift]; omega)
  | hId i ih0 =>
    intro c d hk hd
    simp only [depth, S.lift, Nat.add_zero] at hd
    simp only [disp]
    same_step
    all_goals first | exact ih0 _ _ (fun h => (hk h)) (by simp only [S.lift]; omega)
  | hEllipsis =>
    intro c d hk hd
    simp only [depth, S.lift, Nat.add_zero] at hd
    simp only [disp]
    same_step
  | hSizeOf t ih0 =>
    intro c d hk hd
    simp only [depth, S.lift, Nat.add_zero] at hd
    simp only [disp]
    same_step
    all_goals first | exact ih0 _ _ (fun h => (hk h)) (by simp only [S.lift]; omega)
  | hDeclVal t ih0 =>
    intro c d hk hd
    simp only [depth, S.lift, Nat.add_zero] at hd
    simp only [disp]
    same_step
    all_goals first | exact ih0 _ _ (fun h => (hk h)) (by simp only [S.lift]; omega)
  | aIndex v ih0 =>
    intro c d hk hd
    simp only [depth, S.lift, Nat.add_zero] at hd
    simp only [disp]
    same_step
    all_goals first | exact ih0 _ _ (fun h => (hk h)) (by simp only [S.lift]; omega)
  | aCall a ih0 =>
    intro c d hk hd
    simp only [depth, S.lift, Nat.add_zero] at hd
    simp only [disp]
    same_step
    all_goals first | exact ih0 _ _ (fun h => (hk h)) (by simp only [S.lift]; omega)
  | aBinary o v ih0 ih1 =>
    intro c d hk hd
    simp only [depth, S.lift, Nat.add_zero] at hd
    simp only [disp]
    same_step
    all_goals first | exact ih0 _ _ (fun h => (hk h).1) (by simp only [S.lift]; omega) | exact ih1 _ _ (fun h => (hk h).2) (by simp only [S.lift]; omega)
  | aTernary v w ih0 ih1 =>
    intro c d hk hd
    simp only [depth, S.lift, Nat.add_zero] at hd
    simp only [disp]
    same_step
    all_goals first | exact ih0 _ _ (fun h => (hk h).1) (by simp only [S.lift]; omega) | exact ih1 _ _ (fun h => (hk h).2) (by simp only [S.lift]; omega)
  | aMember u ih0 =>
    intro c d hk hd
    simp only [depth, S.lift, Nat.add_zero] at hd
    simp only [disp]
    same_step
    all_goals first | exact ih0 _ _ (fun h => (hk h)) (by simp only [S.lift]; omega)
  | aPostfix o ih0 =>
    intro c d hk hd
    simp only [depth, S.lift, Nat.add_zero] at hd
    simp only [disp]
    same_step
    all_goals first | exact ih0 _ _ (fun h => (hk h)) (by simp only [S.lift]; omega)
  | aEllipsis =>
    intro c d hk hd
    simp only [depth, S.lift, Nat.add_zero] at hd
    simp only [disp]
    same_step
  | args l ih0 =>
    intro c d hk hd
    simp only [depth, S.lift, Nat.add_zero] at hd
    simp only [disp]
    same_step
    all_goals first | exact ih0 _ _ (fun h => (hk h)) (by simp only [S.lift]; omega)
  | nxNone =>
    intro c d hk hd
    simp only [depth, S.lift, Nat.add_zero] at hd
    simp only [disp]
    same_step
  | nxSome v ih0 =>
    intro c d hk hd
    simp only [depth, S.lift, Nat.add_zero] at hd
    simp only [disp]
    same_step
    all_goals first | exact ih0 _ _ (fun h => (hk h)) (by simp only [S.lift]; omega)
  | newE r pl t co ih0 ih1 ih2 =>
    intro c d hk hd
    simp only [depth, S.lift, Nat.add_zero] at hd
    simp only [disp]
    same_step
    all_goals first | exact ih0 _ _ (fun h => (hk h).1) (by simp only [S.lift]; omega) | exact ih1 _ _ (fun h => (hk h).2.1) (by simp only [S.lift]; omega) | exact ih2 _ _ (fun h => (hk h).2.2) (by simp only [S.lift]; omega)

attribute [local semireducible] disp slice W.seq W.when put done W.guarded W.ifCan

/-- `e.display(&DisplayState::new(r)).to_string()` (display.rs 22-25, 64-68). -/
def Entity.display (e : Entity) (r : Nat) : List Char := (e.disp ⟨[], none, r, []⟩).2.out

/-- No name in the entity is rooted without having scopes, and no signature is
variadic without having parameters. -/
def Entity.Regular (e : Entity) : Prop := ∀ t, e = some t → Cpp.Regular t

theorem entity_same (e : Entity) (k : Nat) (hk : k = 0 → e.Regular) (r r' : Nat)
    (h : e.depth + k ≤ r) (h' : e.depth + k ≤ r') : e.display r = e.display r' := by
  have hs : Same (e.depth + k) e.disp := by
    cases e with
    | none => exact Same.put _ _
    | some t => exact same_disp t k _ _ (fun h => hk h t rfl) (Nat.le_refl _)
  obtain ⟨t, _, _, h1, h2, _⟩ := hs ⟨[], none, r, []⟩ ⟨[], none, r', []⟩ rfl rfl
    (by simp only; omega) (by simp only; omega)
  unfold Entity.display
  rw [h1, h2]

/-- **C37.** For every entity in which no name is rooted without having scopes and no
signature is variadic without having parameters: displaying it with any recursion
limit from the advertised recursion depth on gives the same text, that is, the
text displayed without a limit. -/
theorem advertised_depth_suffices (e : Entity) (he : e.Regular) (r r' : Nat)
    (h : e.depth ≤ r) (h' : e.depth ≤ r') : e.display r = e.display r' :=
  entity_same e 0 (fun _ => he) r r' h h'

/-- **C53.** For every entity whatsoever, one level above the advertised recursion depth
suffices: the display is the same with any limit from there on. -/
theorem advertised_depth_succ_suffices (e : Entity) (r r' : Nat)
    (h : e.depth + 1 ≤ r) (h' : e.depth + 1 ≤ r') : e.display r = e.display r' :=
  entity_same e 1 (fun h => by cases h) r r' h h'

/-- The type `::x`. -/
def rootedX : Entity := some (.ty .nil CV.none
  (.stId (.idExpr (.path true .nil) (.named false (str "x") .none))) .nil)

/-- The type `f(...)`. -/
def variadicF : Entity := some (.ty .nil CV.none
  (.stId (.idExpr (.path false .nil) (.named false (str "f") .none)))
  (.cons (.dFun (.sig none .nil true CV.none Ref.none .nxNone .none)) .nil))

/-- **C37, refuted for other entities.** At its advertised depth, `::x` is displayed
as `x`. -/
theorem advertised_depth_insufficient :
    ∃ e : Entity, e.display e.depth ≠ e.display (e.depth + 1) :=
  ⟨rootedX, by decide +kernel⟩

example : rootedX.depth = 0 ∧ rootedX.display 0 = str "x" ∧ rootedX.display 1 = str "::x" := by
  decide +kernel
example : variadicF.depth = 1 ∧ variadicF.display 1 = str "f()" ∧ variadicF.display 2 = str "f(, ...)" := by
  decide +kernel

/-- `std::vector<int, a::b>(float, ...)`, a more complex entity. -/
def vectorFn : Entity := some (.ty .nil CV.none
  (.stId (.idExpr (.path false (.cons (.scope (.named false (str "std") .none) .none) .nil))
    (.named false (str "vector") (.some (.tpList (.cons
      (.tpTy (.ty .nil CV.none (.stId (.idExpr (.path false .nil) (.named false (str "int") .none))) .nil))
      (.cons (.tpTy (.ty .nil CV.none (.stId (.idExpr (.path false (.cons
        (.scope (.named false (str "a") .none) .none) .nil)) (.named false (str "b") .none))) .nil)) .nil)))))))
  (.cons (.dFun (.sig none (.cons (.ty .nil CV.none (.stLegacy .float) .nil) .nil) true CV.none
    Ref.none .nxNone .none)) .nil))

-- non-vacuity: limits below the depth do elide, limits from the depth on do not
example : vectorFn.Regular := by
  intro t ht
  cases ht
  simp [Cpp.Regular, Ast.isNil]
example : vectorFn.depth = 2 ∧ vectorFn.display 0 = str "…::vector<…>…" ∧
    vectorFn.display 1 = str "std::vector<int, …::b>(…)" ∧
    vectorFn.display 2 = str "std::vector<int, a::b>(float, ...)" ∧
    vectorFn.display 7 = vectorFn.display 2 := by decide +kernel

/-! ### Bounded display of entities -/

open Verif.Display in
/-- The text in clusters of one character (the width of clusters is a parameter of the
display model). -/
def clusters (t : List Char) : Text := t.map fun c => [c]

/-- `DisplayState::default()` has a limit of `usize::MAX` (display.rs 96-102). -/
def noLimit : Nat := 2 ^ 64 - 1

open Verif.Display in
/-- **C36 and C37 together.** For every regular entity and every limit of at least one
column, `bounded_display` succeeds and fits, and if the displays of the entity at
all limits fit, then it returns the display without a limit. -/
theorem bounded_display_complete (M : Metrics) (e : Entity) (he : e.Regular) (maxCols : Nat)
    (h : 1 ≤ maxCols) (hd : e.depth ≤ noLimit) :
    ∃ out, boundedDisplay M (fun r => clusters (e.display r)) e.depth maxCols = some out ∧
      M.width out ≤ maxCols ∧
      ((∀ r, M.width (clusters (e.display r)) ≤ maxCols) → out = clusters (e.display noLimit)) := by
  obtain ⟨out, h1, h2, _, h3⟩ := boundedDisplay_spec M (fun r => clusters (e.display r)) e.depth maxCols h
  refine ⟨out, h1, h2, fun hw => ?_⟩
  rw [h3 fun i _ => hw i, advertised_depth_suffices e he e.depth noLimit (Nat.le_refl _) hd]

example : vectorFn.depth ≤ noLimit := by decide +kernel

end Verif.Cpp
