/-
C50: which texts `parse_entity` panics on, and a class of texts on which it does not.
-/
import Verif.Cpp.GrammarProps

set_option autoImplicit false
set_option linter.unusedVariables false
set_option linter.unusedSimpArgs false

namespace Verif.Cpp

/-! ## Specification: texts on which parsing cannot panic -/

/-- Characters that start an operator, an argument list, an array index, a member access, or
separate arguments. -/
def isOpChar (c : Char) : Bool := "(?.[+-*/%^&|~!=<>,".toList.contains c

/-- Number of such characters. -/
def opCount (s : Input) : Nat := s.countP isOpChar

/-- A sufficient condition for parsing not to panic. -/
structure Safe (s : Input) : Prop where
  /-- the text is not too long -/
  short : s.length < 768
  /-- it has few operator characters -/
  ops : opCount s ≤ 62
  /-- locations of lambdas and anonymous entities are absolute paths -/
  absolute : ∀ pre t, s = pre ++ " at ".toList ++ t → ∃ t', t = '/' :: t'
  /-- no doubling of an operator character that does not make a C++ operator, except
  when an equal sign follows -/
  doubled : ∀ pre c t, c ∈ ['^', '%', '/', '*', '~', '!', ','] → s = pre ++ c :: c :: t →
    ∃ t', t = '=' :: t'

theorem opCount_suffix {r s : Input} (h : r <:+ s) : opCount r ≤ opCount s :=
  h.sublist.countP_le

theorem Safe.suffix {r s : Input} (hs : Safe s) (h : r <:+ s) : Safe r := by
  obtain ⟨u, rfl⟩ := h
  refine ⟨?_, ?_, fun pre t e => ?_, fun pre c t hc e => ?_⟩
  · have := hs.short
    rw [List.length_append] at this
    omega
  · exact Nat.le_trans (opCount_suffix (List.suffix_append _ _)) hs.ops
  · exact hs.absolute (u ++ pre) t (by rw [e]; simp)
  · exact hs.doubled (u ++ pre) c t hc (by rw [e]; simp)

/-! ## Parsers that do not panic on safe texts -/

/-- Like `G` of one parser, and on safe texts the parser does not panic. -/
def H {α : Type} (b : Bool) (n : Nat) (p : P α) : Prop :=
  G b n p p ∧ ∀ s : Input, s.length < n → Safe s → p s ≠ .panic

theorem or_ok {α : Type} {p q : P α} {s r : Input} {a : α} (h : (p.or q) s = .ok r a) :
    p s = .ok r a ∨ q s = .ok r a := by
  unfold P.or at h
  cases hp : p s with
  | ok r1 a1 => rw [hp] at h; cases h; exact Or.inl rfl
  | err => rw [hp] at h; exact Or.inr h
  | panic => rw [hp] at h; cases h
  | fuel => rw [hp] at h; cases h

namespace H

variable {α β : Type} {b c : Bool} {n m : Nat}

theorem weaken {p : P α} (h : H true n p) : H b n p := ⟨h.1.weaken, h.2⟩
theorem toFalse {p : P α} (h : H b n p) : H false n p := ⟨h.1.toFalse, h.2⟩
theorem mono {p : P α} (h : H b (n + 1) p) : H b n p := ⟨h.1.mono, fun s hs => h.2 s (by omega)⟩

theorem ofG {p : P α} (h : G b n p p) (hp : ∀ s, p s ≠ .panic) : H b n p := ⟨h, fun s _ _ => hp s⟩

theorem pure (a : α) : H false n (Pure.pure a : P α) := ofG (G.pure a) (fun s => by simp)
theorem fail : H b n (P.fail : P α) := ofG G.fail (fun s => by simp [P.fail])

theorem bindN {p : P α} {f : α → P β} (hp : H b n p)
    (hf : ∀ a r s, p s = .ok r a → s.length < n → Safe s → Safe r → f a r ≠ .panic) :
    ∀ s : Input, s.length < n → Safe s → (p >>= f) s ≠ .panic := by
  intro s hn hs
  obtain ⟨h1, h2, h3⟩ := hp.1 s hn
  rw [P.bind_run]
  cases hps : p s with
  | ok r a => exact hf a r s hps hn hs (hs.suffix (h3 r a hps).1)
  | err => simp
  | panic => exact absurd hps (hp.2 s hn hs)
  | fuel => simp

theorem bindT {p : P α} {f : α → P β} (hp : H true (n + 1) p)
    (hf : ∀ a, H false n (f a)) : H b (n + 1) (p >>= f) := by
  refine ⟨G.bindT hp.1 fun a => (hf a).1, bindN hp fun a r s e hn hs hr => ?_⟩
  have := ((hp.1 s hn).2.2 r a e).2 rfl
  exact (hf a).2 r (by omega) hr

theorem bindS {p : P α} {f : α → P β} (hp : H true n p)
    (hf : ∀ a, H false n (f a)) : H b n (p >>= f) := by
  refine ⟨G.bindS hp.1 fun a => (hf a).1, bindN hp fun a r s e hn hs hr => ?_⟩
  have := ((hp.1 s hn).2.2 r a e).2 rfl
  exact (hf a).2 r (by omega) hr

theorem bindF {p : P α} {f : α → P β} (hp : H false n p)
    (hf : ∀ a, H b n (f a)) : H b n (p >>= f) := by
  refine ⟨G.bindF hp.1 fun a => (hf a).1, bindN hp fun a r s e hn hs hr => ?_⟩
  have := ((hp.1 s hn).2.2 r a e).1.length_le
  exact (hf a).2 r (by omega) hr

/-- `bindS` with a fact about the output of the first parser.  The second one is total on
the other outputs too, as far as `G` is concerned. -/
theorem bindQS {p : P α} {f : α → P β} (hp : H true n p) (Q : α → Prop)
    (hq : ∀ s r a, s.length < n → Safe s → p s = .ok r a → Q a)
    (hf : ∀ a, Q a → H false n (f a)) (hg : ∀ a, G false n (f a) (f a) := by intro a; gtac) :
    H b n (p >>= f) := by
  refine ⟨G.bindS hp.1 hg, bindN hp fun a r s e hn hs hr => ?_⟩
  have := ((hp.1 s hn).2.2 r a e).2 rfl
  exact (hf a (hq s r a hn hs e)).2 r (by omega) hr

theorem bindQF {p : P α} {f : α → P β} (hp : H false n p) (Q : α → Prop)
    (hq : ∀ s r a, s.length < n → Safe s → p s = .ok r a → Q a)
    (hf : ∀ a, Q a → H b n (f a)) (hg : ∀ a, G b n (f a) (f a) := by intro a; gtac) :
    H b n (p >>= f) := by
  refine ⟨G.bindF hp.1 hg, bindN hp fun a r s e hn hs hr => ?_⟩
  have := ((hp.1 s hn).2.2 r a e).1.length_le
  exact (hf a (hq s r a hn hs e)).2 r (by omega) hr

theorem or {p q : P α} (hp : H b n p) (hq : H b n q) : H b n (p.or q) := by
  refine ⟨hp.1.or hq.1, fun s hn hs => ?_⟩
  unfold P.or
  cases hps : p s with
  | ok r a => simp
  | err => exact hq.2 s hn hs
  | panic => exact absurd hps (hp.2 s hn hs)
  | fuel => simp

theorem opt {p : P α} (hp : H b n p) : H false n p.opt := by
  refine ⟨hp.1.opt, fun s hn hs => ?_⟩
  unfold P.opt
  cases hps : p s with
  | ok r a => simp
  | err => simp
  | panic => exact absurd hps (hp.2 s hn hs)
  | fuel => simp

theorem peek {p : P α} (hp : H b n p) : H false n p.peek := by
  refine ⟨hp.1.peek, fun s hn hs => ?_⟩
  unfold P.peek
  cases hps : p s with
  | ok r a => simp
  | err => simp
  | panic => exact absurd hps (hp.2 s hn hs)
  | fuel => simp

theorem ite {q : Prop} [Decidable q] {p r : P α} (hp : H b n p) (hr : H b n r) :
    H b n (if q then p else r) := by split <;> assumption

theorem mapOptG {p : P α} {f : α → Option β} (hp : H b n p) : H b n (p.mapOpt f) := by
  refine ⟨hp.1.mapOptG, bindN hp fun a r s e hn hs hr => ?_⟩
  cases f a with
  | some b => simp [P.pure]
  | none => simp [P.fail]

theorem verifyG {p : P α} {f : α → Bool} (hp : H b n p) : H b n (p.verify f) := by
  refine ⟨hp.1.verifyG, bindN hp fun a r s e hn hs hr => ?_⟩
  split
  · simp [P.pure]
  · simp [P.fail]

theorem byHead {f : Option Char → P α} (h : ∀ o, H b n (f o)) : H b n (P.byHead f) :=
  ⟨G.byHead fun o => (h o).1, fun s hn hs => (h s.head?).2 s hn hs⟩

theorem many0G {p : P α} (hp : H true n p) : H false n (P.many0 p) := by
  refine ⟨hp.1.many0G, fun s => ?_⟩
  induction hk : s.length using Nat.strong_induction_on generalizing s with
  | _ k ih =>
    intro hn hs
    obtain ⟨h1, h2, h3⟩ := hp.1 s (by omega)
    rw [P.many0_run]
    cases hps : p s with
    | err => simp
    | panic => exact absurd hps (hp.2 s (by omega) hs)
    | fuel => simp
    | ok r a =>
      obtain ⟨hr, hl⟩ := h3 r a hps
      have hl := hl rfl
      simp only [if_pos hl]
      have g := ih r.length (by omega) r rfl (by omega) (hs.suffix hr)
      cases hm : P.many0 p r with
      | ok r' as => simp
      | err => simp
      | panic => exact absurd hm g
      | fuel => simp

theorem sepTerm {p : P α} {sep term : P Unit} (hp : H b n p)
    (hsep : H true n sep) (ht : H false n term) : H b n (P.sepTerm p sep term) := by
  have hb : H true n (sep >>= fun _ => p) := bindS hsep fun _ => hp.toFalse
  have hT : H false n (P.sepTermTail p sep term) := by
    refine ⟨G.sepTermTail hp.1 hsep.1 ht.1, fun s => ?_⟩
    induction hk : s.length using Nat.strong_induction_on generalizing s with
    | _ k ih =>
      intro hn hs
      obtain ⟨h1, h2, h3⟩ := hb.1 s (by omega)
      have t4 := ht.2 s (by omega) hs
      have h4 := hb.2 s (by omega) hs
      rw [P.sepTermTail]
      cases hts : term s with
      | ok r a => simp
      | panic => exact absurd hts t4
      | fuel => simp
      | err =>
        simp only
        cases hps : (sep >>= fun _ => p) s with
        | err => simp
        | panic => exact absurd hps h4
        | fuel => simp
        | ok r a =>
          obtain ⟨hr, hl⟩ := h3 r a hps
          have hl := hl rfl
          simp only [if_pos hl]
          have g := ih r.length (by omega) r rfl (by omega) (hs.suffix hr)
          cases hm : P.sepTermTail p sep term r with
          | ok r' as => simp
          | err => simp
          | panic => exact absurd hm g
          | fuel => simp
  cases b with
  | true => exact bindS hp fun a => bindF hT fun as => pure _
  | false => exact bindF hp fun a => bindF hT fun as => pure _

theorem tag (w : String) (hw : w.toList ≠ []) : H b n (P.tag w) :=
  ofG (G.tag w hw) fun s => by
    rcases tagL_cases w.toList s with ⟨r, h⟩ | h <;> simp [P.tag, h]

theorem char (c : Char) : H b n (P.char c) :=
  ofG (G.char c) fun s => by
    cases s with
    | nil => simp [P.char]
    | cons d ds => simp only [P.char]; split <;> simp

theorem anychar : H b n P.anychar := ofG G.anychar fun s => by cases s <;> simp [P.anychar]

theorem takeWhile1 (f : Char → Bool) : H b n (P.takeWhile1 f) :=
  ofG (G.takeWhile1 f) fun s => by
    simp only [P.takeWhile1, P.verify, P.bind_run, P.takeWhile]
    split <;> simp [P.fail, P.pure]

theorem space0 : H false n P.space0 :=
  ofG G.space0 fun s => by simp [P.space0, P.bind_run, P.takeWhile, P.pure]

theorem space1 : H b n P.space1 := bindS (takeWhile1 _) fun _ => pure _

theorem endOfIdentifier : H false n endOfIdentifier :=
  ofG G.endOfIdentifier fun s => by
    cases s with
    | nil => simp [Cpp.endOfIdentifier]
    | cons d ds => simp only [Cpp.endOfIdentifier]; split <;> simp

theorem identifier : H b n identifier :=
  ofG G.identifier fun s => by
    cases s with
    | nil => simp [Cpp.identifier]
    | cons d ds => simp only [Cpp.identifier]; split <;> simp

theorem keyword (w : String) (hw : w.toList ≠ []) : H b n (keyword w) :=
  bindS (tag w hw) fun _ => endOfIdentifier

theorem keywords (t : List (String × α)) (h : ∀ e ∈ t, e.1.toList ≠ []) : H b n (keywords t) :=
  ofG (G.keywords t h) fun s => by
    induction t with
    | nil => simp [Cpp.keywords]
    | cons e es ih =>
      simp only [Cpp.keywords]
      split
      · simp
      · exact ih (fun e he => h e (by simp [he]))

theorem charSp (c : Char) : H b n (P.charSp c) := bindS (char c) fun _ => space0
theorem spChar (c : Char) : H b n (P.spChar c) := bindF space0 fun _ => char c
theorem spCharSp (c : Char) : H b n (P.spCharSp c) :=
  bindF space0 fun _ => bindS (char c) fun _ => space0
theorem uint (k : Nat) : H b n (P.uint k) := mapOptG (takeWhile1 _)

theorem spacedG {p : P α} (hp : H b n p) : H b n (spaced p) := by
  cases b with
  | true => exact bindS hp fun a => bindF space0 fun _ => pure _
  | false => exact bindF hp fun a => bindF space0 fun _ => pure _

theorem internSeq {s : S} (k : Nat) (l : List (Ast s)) (hl : l.length < 2 ^ k) :
    H false n (internSeq k l) := by
  unfold Cpp.internSeq
  rw [if_pos hl]
  exact pure _

theorem internNil {s : S} (k : Nat) : H false n (Cpp.internSeq (s := s) k []) :=
  internSeq k [] (Nat.two_pow_pos k)

theorem parseCv : H false n parseCv :=
  bindF (many0G (spacedG (keywords _ cvTable_ne))) fun _ => pure _

theorem parseReference : H false n parseReference := mapOptG (many0G (char _))

theorem parseLegacyName : H b n parseLegacyName := ofG G.parseLegacyName legacy_no_panic

theorem symbol : H b n symbol := mapOptG anychar

theorem cvSome : H b n (P.verify Cpp.parseCv fun c => c != CV.none) :=
  ⟨G.cvSome, (verifyG parseCv).2⟩

theorem refSome : H b n (P.verify Cpp.parseReference fun c => c != Ref.none) :=
  ⟨G.refSome, (verifyG parseReference).2⟩

end H

/-- Apply the rules of `H`. -/
syntax "htac" : tactic
macro_rules
  | `(tactic| htac) => `(tactic| first
    | assumption
    | exact H.weaken (by assumption)
    | exact H.toFalse (by assumption)
    | exact H.mono (by assumption)
    | exact H.mono (H.weaken (by assumption))
    | exact H.mono (H.toFalse (by assumption))
    | with_reducible exact H.pure _
    | with_reducible exact H.fail
    | with_reducible exact H.anychar
    | with_reducible exact H.space0
    | with_reducible exact H.space1
    | with_reducible exact H.identifier
    | with_reducible exact H.parseCv
    | with_reducible exact H.parseReference
    | with_reducible exact H.parseLegacyName
    | with_reducible exact H.symbol
    | with_reducible exact H.char _
    | with_reducible exact H.takeWhile1 _
    | with_reducible exact H.charSp _
    | with_reducible exact H.spChar _
    | with_reducible exact H.spCharSp _
    | with_reducible exact H.uint _
    | with_reducible exact H.internNil _
    | ((with_reducible refine H.tag _ ?_); decide +kernel)
    | ((with_reducible refine H.keyword _ ?_); decide +kernel)
    | ((with_reducible refine H.keywords _ ?_); decide +kernel)
    | ((with_reducible refine H.spacedG ?_) <;> htac)
    | ((with_reducible refine H.or ?_ ?_) <;> htac)
    | ((with_reducible refine H.opt (b := true) ?_) <;> htac)
    | ((with_reducible refine H.opt (b := false) ?_) <;> htac)
    | ((with_reducible refine H.peek (b := false) ?_) <;> htac)
    | ((with_reducible refine H.many0G ?_) <;> htac)
    | ((with_reducible refine H.mapOptG ?_) <;> htac)
    | ((with_reducible refine H.verifyG ?_) <;> htac)
    | ((with_reducible refine H.bindT ?_ (fun _ => ?_)) <;> htac)
    | ((with_reducible refine H.bindS ?_ (fun _ => ?_)) <;> htac)
    | ((with_reducible refine H.bindF ?_ (fun _ => ?_)) <;> htac)
    | ((with_reducible refine H.ite ?_ ?_) <;> htac))

namespace H

variable {α β : Type} {b c : Bool} {n m : Nat}

theorem int64 : H b n int64 := by unfold Cpp.int64; htac
theorem integer : H b n integer := by
  have := @int64 true n
  unfold Cpp.integer; htac
theorem octEscape : H b n octEscape := by unfold Cpp.octEscape; htac
theorem hexEscape : H b n hexEscape := by unfold Cpp.hexEscape; htac
theorem charVal (x y : Char) : H b n (charVal x y) := by unfold Cpp.charVal; htac
theorem escapeSequence : H b n escapeSequence := by
  have h1 := @octEscape b n
  have h2 := @hexEscape false n
  unfold Cpp.escapeSequence
  iterate 6 refine or (charVal _ _) ?_
  htac
theorem character : H b n character := by
  have := @escapeSequence true n
  unfold Cpp.character; htac
theorem literal : H b n literal := by
  have h1 := @integer true n
  have h2 := @character true n
  unfold Cpp.literal; htac

end H


/-! ## Counting -/

theorem many0_weight {α : Type} {n : Nat} {p : P α} (hp : G true n p p) (W : Input → Nat) (k : Nat)
    (hw : ∀ s r a, s.length < n → p s = .ok r a → W r + k ≤ W s) :
    ∀ {s r : Input} {l : List α}, s.length < n → P.many0 p s = .ok r l → W r + k * l.length ≤ W s := by
  intro s
  induction hk : s.length using Nat.strong_induction_on generalizing s with
  | _ m ih =>
    intro r l hn e
    rw [P.many0_run] at e
    cases hps : p s with
    | err => rw [hps] at e; cases e; simp
    | panic => rw [hps] at e; cases e
    | fuel => rw [hps] at e; cases e
    | ok r1 a =>
      rw [hps] at e
      have h1 := ((hp s (by omega)).2.2 _ _ hps).2 rfl
      simp only [if_pos h1] at e
      cases hm : P.many0 p r1 with
      | ok r' as =>
        rw [hm] at e
        cases e
        have h2 := ih r1.length (by omega) rfl (by omega) hm
        have h3 := hw s r1 a (by omega) hps
        simp only [List.length_cons, Nat.mul_add, Nat.mul_one]
        omega
      | err => rw [hm] at e; cases e
      | panic => rw [hm] at e; cases e
      | fuel => rw [hm] at e; cases e

theorem proper_suffix {c : Char} {t r : Input} (h : r <:+ c :: t) (hl : r.length < (c :: t).length) :
    r <:+ t := by
  rcases List.suffix_cons_iff.1 h with h | h
  · rw [h] at hl; omega
  · exact h

theorem opCount_head {c : Char} {t r : Input} (hc : isOpChar c = true) (h : r <:+ c :: t)
    (hl : r.length < (c :: t).length) : opCount r + 1 ≤ opCount (c :: t) := by
  have h1 := opCount_suffix (proper_suffix h hl)
  have h2 : opCount (c :: t) = opCount t + 1 := by
    unfold opCount; rw [List.countP_cons, if_pos hc]
  omega

theorem head_op {s : Input} {c : Char} (h : s.head? = some c) (hc : isOpChar c = true) :
    ∃ c t, s = c :: t ∧ isOpChar c = true := by
  cases s with
  | nil => cases h
  | cons d t => cases h; exact ⟨_, t, rfl, hc⟩

/-- Weight of what remains to be parsed of a declarator. -/
def declWeight (s : Input) : Nat := 4 * opCount s + s.length

theorem declWeight_suffix {r s : Input} (h : r <:+ s) : declWeight r ≤ declWeight s := by
  have := opCount_suffix h
  have := h.length_le
  unfold declWeight; omega

theorem declWeight_head {r s : Input} (hc : ∃ c t, s = c :: t ∧ isOpChar c = true) (h : r <:+ s)
    (hl : r.length < s.length) : declWeight r + 5 ≤ declWeight s := by
  obtain ⟨c, t, rfl, hc⟩ := hc
  have := opCount_head hc h hl
  unfold declWeight; omega

theorem spCharSp_comma {s r : Input} {u : Unit} (h : P.spCharSp ',' s = .ok r u) :
    opCount r + 1 ≤ opCount s := by
  obtain ⟨r1, u1, h1, h2⟩ := bind_ok h
  obtain ⟨r2, u2, h3, h4⟩ := bind_ok h2
  have q1 := opCount_suffix (Suff.space0 _ _ _ h1)
  have q2 := opCount_suffix (Suff.space0 _ _ _ h4)
  cases r1 with
  | nil => cases h3
  | cons c t =>
    simp only [P.char] at h3
    split at h3
    · rename_i hc
      cases h3
      subst hc
      have : opCount (',' :: r2) = opCount r2 + 1 := by
        unfold opCount; rw [List.countP_cons, if_pos (by decide +kernel)]
      omega
    · cases h3

/-- A separated list has at most one more item than the text has commas. -/
theorem sepTerm_count {α : Type} {b : Bool} {n : Nat} {p : P α} {c : Char} (hp : H b n p) {s r : Input}
    {l : List α} (hn : s.length < n) (hs : Safe s)
    (e : P.sepTerm p (P.spCharSp ',') (P.spChar c) s = .ok r l) : l.length ≤ 63 := by
  have key : ∀ {s r : Input} {l : List α}, s.length < n →
      P.sepTermTail p (P.spCharSp ',') (P.spChar c) s = .ok r l → l.length ≤ opCount s := by
    have hb : H true n (P.spCharSp ',' >>= fun _ => p) := H.bindS (H.spCharSp _) fun _ => hp.toFalse
    intro s
    induction hk : s.length using Nat.strong_induction_on generalizing s with
    | _ m ih =>
      intro r l hn e
      rw [P.sepTermTail] at e
      cases ht : P.spChar c s with
      | ok r1 u => rw [ht] at e; cases e; simp
      | panic => rw [ht] at e; cases e
      | fuel => rw [ht] at e; cases e
      | err =>
        rw [ht] at e
        simp only at e
        cases hps : (P.spCharSp ',' >>= fun _ => p) s with
        | err => rw [hps] at e; cases e
        | panic => rw [hps] at e; cases e
        | fuel => rw [hps] at e; cases e
        | ok r1 a =>
          rw [hps] at e
          have h1 := ((hb.1 s (by omega)).2.2 _ _ hps).2 rfl
          simp only [if_pos h1] at e
          cases hm : P.sepTermTail p (P.spCharSp ',') (P.spChar c) r1 with
          | ok r' as =>
            rw [hm] at e
            cases e
            have h2 := ih r1.length (by omega) rfl (by omega) hm
            obtain ⟨r2, u, e1, e2⟩ := bind_ok hps
            have h3 := spCharSp_comma e1
            have h4 := (Suff.ofG fun n => (H.spCharSp (b := false) (n := n) ',').1) _ _ _ e1
            have h4l := h4.length_le
            have h5 := opCount_suffix ((hp.1 r2 (by omega)).2.2 _ _ e2).1
            simp only [List.length_cons]
            omega
          | err => rw [hm] at e; cases e
          | panic => rw [hm] at e; cases e
          | fuel => rw [hm] at e; cases e
  obtain ⟨r1, a, e1, e2⟩ := bind_ok e
  obtain ⟨r2, as, e3, e4⟩ := bind_ok e2
  cases e4
  have h1 := ((hp.1 s hn).2.2 _ _ e1).1
  have h1l := h1.length_le
  have := key (by omega) e3
  have := opCount_suffix h1
  have := hs.ops
  simp only [List.length_cons]
  omega

theorem pushParam_length : ∀ (l : List (Option (Ast .ty))) (st : List (Ast .ty) × Bool × Bool),
    (l.foldl pushParam st).1.length ≤ st.1.length + l.length := by
  intro l
  induction l with
  | nil => intro st; simp
  | cons x l ih =>
    intro st
    simp only [List.foldl_cons, List.length_cons]
    have h1 := ih (pushParam st x)
    have h2 : (pushParam st x).1.length ≤ st.1.length + 1 := by
      obtain ⟨e, v, bad⟩ := st
      unfold pushParam
      simp only
      split
      · simp
      · cases x <;> simp
    omega

theorem pathText_ok {s r t : Input} (h : pathText s = .ok r t) : s = t ++ r := by
  obtain ⟨r1, d, h1, h2⟩ := bind_ok h
  obtain ⟨r2, w, h3, h4⟩ := bind_ok h2
  have hw : r1 = w ++ r2 := by
    obtain ⟨h5, -⟩ := verify_ok h3
    cases h5
    exact List.takeWhile_append_dropWhile.symm
  unfold P.opt at h1
  cases hd : (do let c ← P.anychar; P.char ':'; pure c : P Char) s with
  | ok r3 c =>
    rw [hd] at h1
    cases h1
    cases h4
    obtain ⟨r4, c', h6, h7⟩ := bind_ok hd
    obtain ⟨r5, u, h8, h9⟩ := bind_ok h7
    cases h9
    cases s with
    | nil => cases h6
    | cons x xs =>
      cases h6
      cases r4 with
      | nil => cases h8
      | cons y ys =>
        simp only [P.char] at h8
        split at h8
        · rename_i hy
          cases h8
          rw [hy, hw]
          rfl
        · cases h8
  | err =>
    rw [hd] at h1
    cases h1
    cases h4
    exact hw
  | panic => rw [hd] at h1; cases h1
  | fuel => rw [hd] at h1; cases h1

theorem splitSlash_length (p : List Char) : (Intern.splitSlash p).length = p.countP (· == '/') + 1 := by
  induction p with
  | nil => rfl
  | cons c t ih =>
    simp only [Intern.splitSlash, List.countP_cons]
    by_cases hc : c = '/'
    · subst hc
      rw [if_pos rfl, List.length_cons, ih]
      simp
    · rw [if_neg hc, if_neg (by simpa using hc)]
      cases hsp : Intern.splitSlash t with
      | nil => rw [hsp] at ih; simp at ih
      | cons n ns => rw [hsp] at ih; simpa using ih

theorem resolveDots_length (l acc : List (List Char)) :
    (l.foldl (fun acc n => if n = ['.', '.'] then acc.dropLast else acc ++ [n]) acc).length ≤
      acc.length + l.length := by
  induction l generalizing acc with
  | nil => simp
  | cons x l ih =>
    simp only [List.foldl_cons, List.length_cons]
    refine Nat.le_trans (ih _) ?_
    split
    · simp; omega
    · simp; omega

theorem normalize_length (p : List Char) : (Intern.normalize p).length ≤ p.countP (· == '/') + 1 := by
  have h1 : (Intern.normalize p).length ≤ (Intern.partsOf p).length := by
    have := resolveDots_length (Intern.partsOf p) []
    simpa [Intern.normalize, Intern.resolveDots] using this
  have h2 : (Intern.partsOf p).length ≤ (Intern.splitSlash p).length := List.length_filter_le _ _
  rw [splitSlash_length] at h2
  omega

theorem internPath_safe {s r t : Input} (hs : Safe ('/' :: s)) (hc : '/' :: s = t ++ r)
    (hp : pathText ('/' :: s) = .ok r t) : ∃ f, internPath t r = .ok r f := by
  have hne : t ≠ [] := by
    rintro rfl
    have := (Prog.ofG (fun n => G.pathText (n := n) (b := true)) _ _ _ hp).2
    rw [hc] at this
    simp at this
  obtain ⟨t', rfl⟩ : ∃ t', t = '/' :: t' := by
    cases t with
    | nil => exact absurd rfl hne
    | cons x xs => simp only [List.cons_append, List.cons.injEq] at hc; exact ⟨xs, by rw [hc.1]⟩
  have h1 := normalize_length ('/' :: t')
  have h2 : ('/' :: t').countP (· == '/') ≤ opCount ('/' :: s) := by
    rw [hc]
    unfold opCount
    rw [List.countP_append]
    refine Nat.le_trans (List.countP_mono_left ?_) (Nat.le_add_right _ _)
    intro x _ hx
    have : x = '/' := by simpa using hx
    subst this
    decide +kernel
  have h3 := hs.ops
  unfold internPath
  have h4 : Intern.isRelative ('/' :: t') = false := rfl
  rw [h4]
  rw [if_neg (by simp), if_pos (by omega)]
  exact ⟨_, rfl⟩

theorem binary_head {ac ag : Bool} {s r : Input} {o : ArithOp} (h : binaryExprMiddle ac ag s = .ok r o) :
    ∃ c t, s = c :: t ∧ isOpChar c = true := by
  have hsym : ∀ a : Symbol, isOpChar a.char = true := by intro a; cases a <;> decide +kernel
  rcases binary_run ac ag s with ⟨-, e⟩ | ⟨a, t, rfl, -⟩ | ⟨a, b, t, rfl, -⟩ | ⟨a, b, c, t, rfl, -⟩
  · rw [e] at h; cases h
  · exact ⟨_, _, rfl, hsym a⟩
  · exact ⟨_, _, rfl, hsym a⟩
  · exact ⟨_, _, rfl, hsym a⟩

theorem incDec_head {s r : Input} {o : ArithOp} (h : incDec s = .ok r o) :
    ∃ c t, s = c :: t ∧ isOpChar c = true := by
  rcases or_ok h with h | h
  · obtain ⟨r1, u, h1, -⟩ := bind_ok h
    exact ⟨'+', '+' :: r1, tag_ok h1, by decide +kernel⟩
  · obtain ⟨r1, u, h1, -⟩ := bind_ok h
    exact ⟨'-', '-' :: r1, tag_ok h1, by decide +kernel⟩

theorem cvKeyword_length {s r : Input} {c : CV} (h : spaced (keywords cvTable) s = .ok r c) :
    r.length + 5 ≤ s.length := by
  obtain ⟨r1, c1, h1, h2⟩ := bind_ok h
  obtain ⟨r2, u, h3, h4⟩ := bind_ok h2
  cases h4
  have q := (Suff.space0 _ _ _ h3).length_le
  have key : ∀ w : String, 5 ≤ w.toList.length → ∀ r u, keyword w s = .ok r u → r.length + 5 ≤ s.length := by
    intro w hw r u e
    obtain ⟨r3, u3, e1, e2⟩ := bind_ok e
    have := congrArg List.length (tag_ok e1)
    rw [List.length_append] at this
    have := (Suff.endOfIdentifier _ _ _ e2).length_le
    omega
  simp only [cvTable, keywords] at h1
  split at h1
  · rename_i r3 u3 e
    cases h1
    have := key _ (by decide +kernel) _ _ e
    omega
  · split at h1
    · rename_i r3 u3 e
      cases h1
      have := key _ (by decide +kernel) _ _ e
      omega
    · cases h1

theorem cvSome_length {s r : Input} {c : CV}
    (h : P.verify parseCv (fun c => c != CV.none) s = .ok r c) : r.length + 5 ≤ s.length := by
  obtain ⟨h1, h2⟩ := verify_ok h
  obtain ⟨r1, l, h3, h4⟩ := bind_ok h1
  cases h4
  have hk : G true (s.length + 1) (spaced (keywords cvTable)) (spaced (keywords cvTable)) :=
    G.spacedG (G.keywords _ cvTable_ne)
  have := many0_weight hk List.length 5 (fun s r a _ e => cvKeyword_length e) (by omega) h3
  cases l with
  | nil => simp at h2
  | cons x l => simp only [List.length_cons] at this; omega

/-- The recursive functions are safe on inputs shorter than `n`. -/
structure HR (n : Nat) (R : Calls) : Prop where
  ty : H true n R.typeLike
  value : ∀ ac ag, H true n (R.valueLike ac ag)
  decl : H false n R.declarator

theorem HR.toGR {n : Nat} {R : Calls} (h : HR n R) : GR n R R :=
  ⟨h.ty.1, fun ac ag => (h.value ac ag).1, h.decl.1⟩

namespace HR

variable {n : Nat} {R : Calls} {b : Bool}

theorem functionCall (h : HR n R) : H b (n + 1) (functionCall R) := by
  have hs : H true n (P.sepTerm (R.valueLike false true) (P.spCharSp ',') (P.spChar ')')) :=
    H.sepTerm (h.value _ _) (H.spCharSp _) (H.spChar _)
  have hi : H true n (P.sepTerm (R.valueLike false true) (P.spCharSp ',') (P.spChar ')') >>=
      fun l => Cpp.internSeq 6 l) :=
    H.bindQS hs (fun l => l.length ≤ 63)
      (fun s r l hn hsafe e => sepTerm_count (h.value _ _) hn hsafe e)
      fun l hl => H.internSeq _ _ (by omega)
  unfold Cpp.functionCall; htac

theorem parameterOrEllipsis (h : HR n R) :
    H b n (parameterOrEllipsis R) := by
  have h1 := h.ty
  unfold Cpp.parameterOrEllipsis; htac

theorem parameterSet (h : HR n R) : H b (n + 1) (parameterSet R) := by
  have hs : H true n (P.sepTerm (Cpp.parameterOrEllipsis R) (P.spCharSp ',') (P.spChar ')')) :=
    H.sepTerm h.parameterOrEllipsis (H.spCharSp _) (H.spChar _)
  unfold Cpp.parameterSet
  refine H.bindT (H.charSp _) fun _ => H.or (H.bindQS hs (fun l => l.length ≤ 63)
      (fun s r l hn hsafe e => sepTerm_count (h.parameterOrEllipsis (b := false)) hn hsafe e)
      fun l hl => ?_) (by htac)
  have hf := pushParam_length l ([], false, false)
  simp only [List.length_nil, Nat.zero_add] at hf
  refine H.ite (by htac) (H.bindF (H.internSeq _ _ (by omega)) fun _ => ?_)
  htac

theorem parenValue (h : HR n R) (ac ag : Bool) :
    H b (n + 1) (parenValue R ac ag) := by
  have h1 := h.value ac ag
  unfold Cpp.parenValue; htac

theorem noexceptQ (h : HR n R) : H b (n + 1) (noexceptQ R) := by
  have h1 := h.parenValue (b := true) false true
  unfold Cpp.noexceptQ; htac

theorem _root_.Verif.Cpp.H.abiTag : H b n abiTag := by unfold Cpp.abiTag; htac

theorem trailingReturn (h : HR n R) : H b (n + 1) (trailingReturn R) := by
  have h1 := h.ty
  unfold Cpp.trailingReturn; htac

theorem functionSignature (h : HR n R) :
    H b (n + 1) (functionSignature R) := by
  have h1 := @H.abiTag n.succ true
  have h2 := h.parameterSet (b := true)
  have h3 := h.noexceptQ (b := true)
  have h4 := h.trailingReturn (b := true)
  unfold Cpp.functionSignature; htac

theorem templateParameter (h : HR n R) : H b n (templateParameter R) := by
  have h1 := h.ty
  have h2 := h.value false false
  have h3 : H false n tparamEnd := by unfold tparamEnd; htac
  unfold Cpp.templateParameter; htac

theorem templateParameters (h : HR n R) :
    H b (n + 1) (templateParameters R) := by
  have hs : H true n (P.sepTerm (Cpp.templateParameter R) (P.spCharSp ',') (P.spChar '>')) :=
    H.sepTerm h.templateParameter (H.spCharSp _) (H.spChar _)
  have hi : H true n (P.sepTerm (Cpp.templateParameter R) (P.spCharSp ',') (P.spChar '>') >>=
      fun l => Cpp.internSeq 10 l >>= fun k => Pure.pure (Ast.tpList k)) :=
    H.bindQS hs (fun l => l.length ≤ 63)
      (fun s r l hn hsafe e => sepTerm_count (h.templateParameter (b := false)) hn hsafe e)
      fun l hl => H.bindF (H.internSeq _ _ (by omega)) fun _ => H.pure _
  unfold Cpp.templateParameters; htac

theorem _root_.Verif.Cpp.H.pathText : H b n pathText := by
  unfold Cpp.pathText
  refine H.bindF (H.opt (b := true) (by htac)) fun d => H.bindS (H.takeWhile1 _) fun t => ?_
  cases d <;> htac

theorem _root_.Verif.Cpp.H.sourceLocationTail (f : List Char) : H b n (do
    P.char ':'
    let line ← P.uint 32
    P.char ':'
    let col ← P.uint 32
    pure (⟨f, line, col⟩ : Loc)) := by htac

/-- A path that starts with a slash and has few slashes is interned without panic. -/
theorem _root_.Verif.Cpp.sourceLocation_safe (s : Input) (hs : Safe ('/' :: s)) :
    sourceLocation ('/' :: s) ≠ .panic := by
  intro e
  unfold Cpp.sourceLocation at e
  rw [P.bind_run] at e
  cases hp : Cpp.pathText ('/' :: s) with
  | ok r t =>
    rw [hp] at e
    have hcons := pathText_ok hp
    have hok : ∃ f, Cpp.internPath t r = .ok r f := internPath_safe hs hcons hp
    obtain ⟨f, hf⟩ := hok
    simp only [P.bind_run, hf] at e
    have hr : Safe r := hs.suffix (by rw [hcons]; exact List.suffix_append _ _)
    exact (H.sourceLocationTail (b := true) f (n := r.length + 1)).2 r (by omega) hr e
  | err => rw [hp] at e; cases e
  | panic =>
    exact (H.pathText (b := true) (n := s.length + 2)).2 _ (by simp) hs hp
  | fuel => rw [hp] at e; cases e

/-- After the tag of a location. -/
theorem _root_.Verif.Cpp.H.atLocation {w pre : String} (hw : w.toList = pre.toList ++ " at ".toList) :
    H b n (do P.tag w; sourceLocation) := by
  have hne : w.toList ≠ [] := by
    rw [hw]; intro h; simp at h
  refine ⟨G.bindS (G.tag w hne) fun _ => G.sourceLocation, fun s hn hs e => ?_⟩
  rw [P.bind_run] at e
  cases ht : P.tag w s with
  | ok r u =>
    rw [ht] at e
    have h1 := tag_ok ht
    rw [hw] at h1
    obtain ⟨t', rfl⟩ := hs.absolute _ _ h1
    exact sourceLocation_safe _ (hs.suffix (by rw [h1]; exact List.suffix_append _ _)) e
  | err => rw [ht] at e; cases e
  | panic => rcases tagL_cases w.toList s with ⟨r, h⟩ | h <;> simp [P.tag, h] at ht
  | fuel => rw [ht] at e; cases e

theorem _root_.Verif.Cpp.bind_assoc' {α β γ : Type} (p : P α) (f : α → P β) (g : β → P γ) :
    (p >>= f) >>= g = p >>= fun a => f a >>= g := by
  funext s
  simp only [P.bind_run]
  cases p s <;> rfl

theorem _root_.Verif.Cpp.H.clangLambda : H b n clangLambda := by
  have h1 := @H.atLocation n b "(lambda at " "(lambda" (by decide +kernel)
  have h2 : H b n ((do P.tag "(lambda at "; Cpp.sourceLocation) >>= fun l => do
      P.char ')'
      pure (Ast.clangLambda l)) := by
    cases b with
    | true => exact H.bindS h1 fun l => by htac
    | false => exact H.bindF h1 fun l => by htac
  unfold Cpp.clangLambda
  rw [bind_assoc'] at h2
  exact h2

theorem _root_.Verif.Cpp.H.clangAnonymous : H b n clangAnonymous := by
  have h1 := @H.atLocation n true " at " "" (by decide +kernel)
  unfold Cpp.clangAnonymous; htac

theorem libibertyLambda (h : HR n R) : H b (n + 1) (libibertyLambda R) := by
  have h1 := h.functionSignature (b := true)
  unfold Cpp.libibertyLambda; htac

theorem _root_.Verif.Cpp.H.libibertyUnnamed : H b n libibertyUnnamed := by
  unfold Cpp.libibertyUnnamed; htac

theorem anonymous (h : HR n R) : H b (n + 1) (anonymous R) :=
  H.byHead fun c => H.ite (H.or H.clangLambda H.clangAnonymous)
    (H.or h.libibertyLambda H.libibertyUnnamed)

theorem arithAndTemplates (h : HR n R) {p : P ArithOp} (hp : ∀ m, H true m p) :
    H b (n + 1) (arithAndTemplates R p) := by
  have h1 := h.templateParameters (b := true)
  unfold Cpp.arithAndTemplates
  refine H.bindT (hp _) fun o => H.bindF (by htac) fun _ => H.bindF (by htac) fun tp =>
    H.bindF (by htac) fun sym => ?_
  cases sym <;> htac

theorem _root_.Verif.Cpp.H.arith1 : H b n arith1 := by unfold Cpp.arith1; htac
theorem _root_.Verif.Cpp.H.arith2 : H b n arith2 := by unfold Cpp.arith2; htac
theorem _root_.Verif.Cpp.H.arith3 : H b n arith3 := by unfold Cpp.arith3; htac
theorem _root_.Verif.Cpp.H.customLiteral : H b n customLiteral := by
  unfold Cpp.customLiteral; htac
theorem _root_.Verif.Cpp.H.callOrIndex : H b n callOrIndex := by
  unfold Cpp.callOrIndex; htac
theorem _root_.Verif.Cpp.H.newOverload : H b n newOverload := by
  unfold Cpp.newOverload; htac
theorem _root_.Verif.Cpp.H.deleteOp : H b n deleteOp := by unfold Cpp.deleteOp; htac
theorem _root_.Verif.Cpp.H.coAwaitOp : H b n coAwaitOp := by unfold Cpp.coAwaitOp; htac

theorem otherOverload (h : HR n R) : H b (n + 1) (otherOverload R) := by
  have h1 := h.ty
  have h2 := @H.customLiteral n.succ true
  have h3 := @H.callOrIndex n.succ true
  have h4 := @H.newOverload n.succ true
  have h5 := @H.deleteOp n.succ true
  have h6 := @H.coAwaitOp n.succ true
  unfold Cpp.otherOverload; htac

theorem operatorOverload (h : HR n R) :
    H b (n + 1) (operatorOverload R) := by
  have h1 := h.arithAndTemplates (b := true) (fun m => @H.arith1 m true)
  have h2 := h.arithAndTemplates (b := true) (fun m => @H.arith2 m true)
  have h3 := h.arithAndTemplates (b := true) (fun m => @H.arith3 m true)
  have h4 := h.otherOverload (b := true)
  have h5 := h.templateParameters (b := true)
  unfold Cpp.operatorOverload; htac

theorem named (h : HR n R) (d : Bool) : H b (n + 1) (named R d) := by
  have h5 := h.templateParameters (b := true)
  unfold Cpp.named; htac

theorem operatorId (h : HR n R) : H b (n + 1) (operatorId R) := by
  have h5 := h.operatorOverload (b := true)
  unfold Cpp.operatorId; htac

theorem decltypeId (h : HR n R) : H b (n + 1) (decltypeId R) := by
  have h5 := h.value false true
  unfold Cpp.decltypeId; htac

theorem unqualifiedId (h : HR n R) : H b (n + 1) (unqualifiedId R) := by
  have h1 := h.anonymous (b := true)
  have h2 := h.decltypeId (b := true)
  have h3 := h.operatorId (b := true)
  have h4 := h.named (b := true) true
  have h5 := h.named (b := true) false
  refine H.byHead fun c => ?_
  htac

theorem scopeEnd (h : HR n R) : H b (n + 1) (scopeEnd R) := by
  have h1 := h.functionSignature (b := true)
  have h2 : H true n.succ cvOrRef := by
    have := @H.cvSome true n.succ
    have := @H.refSome true n.succ
    unfold cvOrRef; htac
  unfold Cpp.scopeEnd; htac

theorem scopeOrUid (h : HR n R) : H b (n + 1) (scopeOrUid R) := by
  unfold Cpp.scopeOrUid
  refine H.bindS h.unqualifiedId fun u => H.bindF (H.opt h.scopeEnd (b := true)) fun e => ?_
  cases e <;> htac

theorem _root_.Verif.Cpp.H.protoLoop {p : P (Ast .scope ⊕ Ast .uid)} (hp : H true n p) :
    H false n (protoLoop p : P _) := by
  refine ⟨G.protoLoop hp.1, fun s => ?_⟩
  induction hk : s.length using Nat.strong_induction_on generalizing s with
  | _ k ih =>
    intro hn hs
    obtain ⟨h1, h2, h3⟩ := hp.1 s (by omega)
    have h4 := hp.2 s (by omega) hs
    rw [Cpp.protoLoop]
    cases hps : p s with
    | err => simp
    | panic => exact absurd hps h4
    | fuel => exact absurd hps h2
    | ok r a =>
      obtain ⟨hr, hl⟩ := h3 r a hps
      have hl := hl rfl
      cases a with
      | inr u => simp
      | inl sc =>
        simp only [if_pos hl]
        have g := ih r.length (by omega) r rfl (by omega) (hs.suffix hr)
        cases hm : Cpp.protoLoop p r with
        | ok r' x => simp
        | err => simp
        | panic => exact absurd hm g
        | fuel => simp

/-- Every scope takes at least three characters. -/
theorem scope_length (h : HR n R) {s r : Input} {sc : Ast .scope} (hs : s.length < n + 1)
    (e : Cpp.scopeOrUid R s = .ok r (.inl sc)) : r.length + 3 ≤ s.length := by
  obtain ⟨r1, u, e1, e2⟩ := bind_ok e
  obtain ⟨r2, o, e3, e4⟩ := bind_ok e2
  have h1 := ((h.unqualifiedId (b := true)).1 s hs).2.2 _ _ e1
  have h1l := h1.2 rfl
  cases o with
  | none => cases e4
  | some sg =>
    cases e4
    have e5 : Cpp.scopeEnd R r1 = .ok r sg := by
      unfold P.opt at e3
      cases hx : Cpp.scopeEnd R r1 with
      | ok a b => rw [hx] at e3; cases e3; rfl
      | err => rw [hx] at e3; cases e3
      | panic => rw [hx] at e3; cases e3
      | fuel => rw [hx] at e3; cases e3
    obtain ⟨r3, a3, e6, e7⟩ := bind_ok e5
    obtain ⟨r4, a4, e8, e9⟩ := bind_ok e7
    obtain ⟨r5, a5, e10, e11⟩ := bind_ok e9
    cases e11
    have h2 := ((H.opt (h.functionSignature (b := true))).1 r1 (by omega)).2.2 _ _ e6
    have h2l := h2.1.length_le
    have hcv : H true (n + 1) (do P.space0; cvOrRef) := by
      have h2 : H true n.succ cvOrRef := by
        have := @H.cvSome true n.succ
        have := @H.refSome true n.succ
        unfold cvOrRef; htac
      htac
    have h3 := ((H.many0G hcv).1 r3 (by omega)).2.2 _ _ e8
    have h3l := h3.1.length_le
    have h4 := congrArg List.length (tag_ok e10)
    rw [List.length_append] at h4
    have : ("::".toList).length = 2 := by decide +kernel
    omega

theorem scopes_length (h : HR n R) : ∀ {s r : Input} {l : List (Ast .scope)}
    {o : Option (Input × Ast .uid)}, s.length < n + 1 →
    Cpp.protoLoop (Cpp.scopeOrUid R) s = .ok r (l, o) → 3 * l.length ≤ s.length := by
  intro s
  induction hk : s.length using Nat.strong_induction_on generalizing s with
  | _ k ih =>
    intro r l o hn e
    rw [Cpp.protoLoop] at e
    cases hps : Cpp.scopeOrUid R s with
    | err => rw [hps] at e; cases e; simp
    | panic => rw [hps] at e; cases e
    | fuel => rw [hps] at e; cases e
    | ok r1 a =>
      rw [hps] at e
      cases a with
      | inr u => cases e; simp
      | inl sc =>
        have h1 := h.scope_length (by omega) hps
        simp only at e
        rw [if_pos (by omega)] at e
        cases hm : Cpp.protoLoop (Cpp.scopeOrUid R) r1 with
        | ok r' x =>
          obtain ⟨l', o'⟩ := x
          rw [hm] at e
          cases e
          have := ih r1.length (by omega) rfl (by omega) hm
          simp only [List.length_cons]
          omega
        | err => rw [hm] at e; cases e
        | panic => rw [hm] at e; cases e
        | fuel => rw [hm] at e; cases e

theorem protoIdExpression (h : HR n R) : H false (n + 1) (protoIdExpression R) := by
  have h1 := H.protoLoop (h.scopeOrUid (b := true))
  unfold Cpp.protoIdExpression
  refine H.bindF (by htac) fun _ => H.bindQF h1 (fun x => x.1.length < 2 ^ 8)
    (fun s r x hn hs e => ?_) fun x hx => H.bindF (H.internSeq _ _ hx) fun _ => ?_
  · have := h.scopes_length (l := x.1) (o := x.2) hn e
    have := hs.short
    omega
  · htac

theorem idExpression (h : HR n R) : H b (n + 1) (idExpression R) := by
  refine ⟨h.toGR.idExpression, ?_⟩
  have h0 : H false (n + 1) (Cpp.idExpression R) := by
    unfold Cpp.idExpression
    refine H.bindF h.protoIdExpression fun x => ?_
    cases x.2 <;> htac
  exact h0.2

theorem nestedNameSpecifier (h : HR n R) :
    H false (n + 1) (nestedNameSpecifier R) := by
  refine ⟨h.toGR.nestedNameSpecifier, fun s hn hs => ?_⟩
  have h2 := h.protoIdExpression.2 s hn hs
  unfold Cpp.nestedNameSpecifier
  cases e : Cpp.protoIdExpression R s with
  | ok r x =>
    obtain ⟨p, o⟩ := x
    cases o <;> simp
  | err => simp
  | panic => exact absurd e h2
  | fuel => simp

theorem _root_.Verif.Cpp.H.incDec : H b n incDec := by unfold Cpp.incDec; htac
theorem _root_.Verif.Cpp.H.unarySymbol : H b n unarySymbol := by
  unfold Cpp.unarySymbol; htac

theorem castPrefix (h : HR n R) : H b (n + 1) (castPrefix R) := by
  have h1 := h.ty
  unfold Cpp.castPrefix; htac

theorem unaryPrefix (h : HR n R) : H b (n + 1) (unaryPrefix R) := by
  have h1 := h.castPrefix (b := true)
  have h2 := @H.incDec n.succ true
  have h3 := @H.unarySymbol n.succ true
  have h5 := @H.deleteOp n.succ true
  have h6 := @H.coAwaitOp n.succ true
  unfold Cpp.unaryPrefix; htac

theorem newExpression (h : HR n R) : H b (n + 1) (newExpression R) := by
  have h1 := h.ty
  have h2 := h.functionCall (b := true)
  unfold Cpp.newExpression; htac

theorem unaryOp (h : HR n R) (ac ag : Bool) :
    H b (n + 1) (unaryOp R ac ag) := by
  have h1 := h.unaryPrefix (b := true)
  have h2 := h.value ac ag
  unfold Cpp.unaryOp; htac

theorem ofType (h : HR n R) (w : String) (hw : w.toList ≠ []) (f : Ast .ty → Ast .header) :
    H b (n + 1) (ofType R w f) := by
  have h1 := h.ty
  exact H.bindT (H.tag w hw) fun _ => by htac

theorem valueHeader (h : HR n R) (ac ag : Bool) :
    H b (n + 1) (valueHeader R ac ag) := by
  have h1 := @H.literal true n.succ
  have h2 := h.newExpression (b := true)
  have h3 := h.ofType (b := true) "sizeof(" (by decide +kernel) .hSizeOf
  have h4 := h.ofType (b := true) "declval(" (by decide +kernel) .hDeclVal
  have h5 := h.idExpression (b := true)
  have h6 := h.unaryOp (b := true) ac ag
  have h7 := h.parenValue (b := true) true true
  unfold Cpp.valueHeader; htac

theorem _root_.Verif.Cpp.H.binaryExprMiddle (ac ag : Bool) :
    H b n (binaryExprMiddle ac ag) := by
  refine ⟨G.binaryExprMiddle ac ag, fun s _ hs e => ?_⟩
  obtain ⟨c, hc, t, rfl, ht⟩ := (binary_panics_iff ac ag s).1 e
  obtain ⟨t', ht'⟩ := hs.doubled [] c t hc rfl
  exact ht t' ht'

theorem binaryOp (h : HR n R) (ac ag : Bool) :
    H b (n + 1) (binaryOp R ac ag) := by
  have h1 := @H.binaryExprMiddle n.succ true ac ag
  have h2 := h.value ac ag
  unfold Cpp.binaryOp; htac

theorem ternaryOp (h : HR n R) (ac ag : Bool) :
    H b (n + 1) (ternaryOp R ac ag) := by
  have h2 := h.value ac ag
  unfold Cpp.ternaryOp; htac

theorem arrayIndex (h : HR n R) : H b (n + 1) (arrayIndex R) := by
  have h2 := h.value false true
  unfold Cpp.arrayIndex; htac

theorem memberAccess (h : HR n R) : H b (n + 1) (memberAccess R) := by
  have h2 := h.unqualifiedId (b := true)
  unfold Cpp.memberAccess; htac

theorem afterValue (h : HR n R) (ac ag : Bool) :
    H b (n + 1) (afterValue R ac ag) := by
  have h1 := h.functionCall (b := true)
  have h2 := h.ternaryOp (b := true) ac ag
  have h3 := h.memberAccess (b := true)
  have h4 := h.arrayIndex (b := true)
  have h5 := h.binaryOp (b := true) ac ag
  have h6 := @H.incDec n.succ true
  refine H.byHead fun c => ?_
  htac

/-- Whatever extends a value starts with an operator character. -/
theorem afterValue_head {ac ag : Bool} {s r : Input} {a : Ast .after}
    (e : Cpp.afterValue R ac ag s = .ok r a) : ∃ c t, s = c :: t ∧ isOpChar c = true := by
  by_cases h1 : s.head? = some '('
  · exact head_op h1 (by decide +kernel)
  by_cases h2 : s.head? = some '?'
  · exact head_op h2 (by decide +kernel)
  by_cases h3 : s.head? = some '.'
  · exact head_op h3 (by decide +kernel)
  by_cases h4 : s.head? = some '['
  · exact head_op h4 (by decide +kernel)
  have e' : P.or (Cpp.binaryOp R ac ag) (do let o ← Cpp.incDec; pure (.aPostfix (.arith o))) s = .ok r a := by
    rw [← e]
    show _ = (if s.head? = some '(' then _ else if s.head? = some '?' then _ else
      if s.head? = some '.' then _ else if s.head? = some '[' then _ else _ : P _) s
    rw [if_neg h1, if_neg h2, if_neg h3, if_neg h4]
  unfold P.or at e'
  cases hb : Cpp.binaryOp R ac ag s with
  | ok r1 a1 =>
    obtain ⟨r2, o, e2, -⟩ := bind_ok hb
    exact binary_head e2
  | err =>
    rw [hb] at e'
    obtain ⟨r2, o, e2, -⟩ := bind_ok e'
    exact incDec_head e2
  | panic => rw [hb] at e'; cases e'
  | fuel => rw [hb] at e'; cases e'

theorem stepValueLike (h : HR n R) (ac ag : Bool) :
    H b (n + 1) (stepValueLike R ac ag) := by
  have h1 := h.valueHeader (b := true) ac ag
  have h2 := h.afterValue (b := true) ac ag
  have h3 : H true (n + 1) (do P.space0; Cpp.afterValue R ac ag) := by htac
  unfold Cpp.stepValueLike
  refine H.bindS h1 fun v => H.bindQF (H.many0G h3) (fun l => l.length < 2 ^ 6)
    (fun s r l hn hs e => ?_) fun l hl => H.bindF (H.internSeq _ _ hl) fun _ => ?_
  · have := many0_weight h3.1 opCount 1 (fun s r a hn e => ?_) hn e
    · have := hs.ops
      omega
    · obtain ⟨r1, u, e1, e2⟩ := bind_ok e
      have q1 := Suff.space0 _ _ _ e1
      have q1l := q1.length_le
      obtain ⟨q2, q3⟩ := (h2.1 r1 (by omega)).2.2 _ _ e2
      obtain ⟨c, t, rfl, hc⟩ := afterValue_head e2
      have := opCount_head hc q2 (q3 rfl)
      have := opCount_suffix q1
      omega
  · htac

theorem _root_.Verif.Cpp.H.cvRestrict : H false n cvRestrict := by
  unfold Cpp.cvRestrict; htac

theorem _root_.Verif.Cpp.H.basicPointer : H b n basicPointer := by
  have := @H.cvRestrict n
  unfold Cpp.basicPointer; htac

theorem memberPointer (h : HR n R) : H b (n + 1) (memberPointer R) := by
  have h1 := h.nestedNameSpecifier
  have h2 := @H.cvRestrict n.succ
  unfold Cpp.memberPointer; htac

theorem arrayDecl (h : HR n R) : H b (n + 1) (arrayDecl R) := by
  have h2 := h.value false true
  unfold Cpp.arrayDecl; htac

theorem parenDecl (h : HR n R) : H b (n + 1) (parenDecl R) := by
  have h2 := h.decl
  unfold Cpp.parenDecl; htac

theorem vectorDecl (h : HR n R) : H b (n + 1) (vectorDecl R) := by
  have h2 := h.value false true
  unfold Cpp.vectorDecl; htac

theorem _root_.Verif.Cpp.H.cvDecl : H b n cvDecl := by
  have := @H.cvSome true n
  unfold Cpp.cvDecl; htac

theorem funDecl (h : HR n R) : H b (n + 1) (funDecl R) := by
  have h2 := h.functionSignature (b := true)
  unfold Cpp.funDecl; htac

theorem declOperator (h : HR n R) : H b (n + 1) (declOperator R) := by
  have h2 := h.funDecl (b := true)
  have h3 := h.parenDecl (b := true)
  have h4 := h.memberPointer (b := true)
  have h5 := h.arrayDecl (b := true)
  have h6 := h.vectorDecl (b := true)
  have h7 := @H.cvDecl n.succ true
  have h8 := @H.basicPointer n.succ true
  refine ⟨h.toGR.declOperator, ?_⟩
  have : H false (n + 1) (Cpp.declOperator R) := by
    refine H.byHead fun c => ?_
    htac
  exact this.2

/-- Every part of a declarator weighs at least five. -/
theorem declOperator_weight (h : HR n R) {s r : Input} {a : Ast .declop} (hs : s.length < n + 1)
    (e : Cpp.declOperator R s = .ok r a) : declWeight r + 5 ≤ declWeight s := by
  obtain ⟨q1, q2⟩ := ((h.declOperator (b := true)).1 s hs).2.2 _ _ e
  have q2 := q2 rfl
  have hmem : ∀ {a : Ast .declop} {r : Input}, Cpp.memberPointer R s = .ok r a →
      declWeight r + 5 ≤ declWeight s := by
    intro a r e
    obtain ⟨r1, p, e1, e2⟩ := bind_ok e
    obtain ⟨r2, u, e3, e4⟩ := bind_ok e2
    have w1 := (h.nestedNameSpecifier.1 s hs).2.2 _ _ e1
    have w2 : H false (n + 1) (do
        P.space0
        let x ← Cpp.cvRestrict
        pure (Ast.dPtr p x.1 x.2)) := by
      have := @H.cvRestrict n.succ
      htac
    have w2l := w1.1.length_le
    cases r1 with
    | nil => cases e3
    | cons c t =>
      simp only [P.char] at e3
      split at e3
      · rename_i hc
        cases e3
        subst hc
        simp only [List.length_cons] at w2l
        have w3 := (w2.1 r2 (by omega)).2.2 _ _ e4
        have := declWeight_suffix w1.1
        have := declWeight_suffix w3.1
        have : declWeight ('*' :: r2) = declWeight r2 + 5 := by
          unfold declWeight opCount
          simp [List.countP_cons, show isOpChar '*' = true by decide +kernel]
          omega
        omega
      · cases e3
  by_cases h1 : s.head? = some '&'
  · exact declWeight_head (head_op h1 (by decide +kernel)) q1 q2
  by_cases h2 : s.head? = some '*'
  · exact declWeight_head (head_op h2 (by decide +kernel)) q1 q2
  by_cases h3 : s.head? = some '('
  · exact declWeight_head (head_op h3 (by decide +kernel)) q1 q2
  by_cases h4 : s.head? = some '['
  · exact declWeight_head (head_op h4 (by decide +kernel)) q1 q2
  have e' : (if s.head? = some '_' then P.or (Cpp.vectorDecl R) (Cpp.memberPointer R)
      else if s.head? = some 'c' ∨ s.head? = some 'v' then P.or Cpp.cvDecl (Cpp.memberPointer R)
      else Cpp.memberPointer R) s = .ok r a := by
    rw [← e]
    show _ = (if s.head? = some '&' then _ else if s.head? = some '*' then _ else
      if s.head? = some '(' then _ else if s.head? = some '[' then _ else _ : P _) s
    rw [if_neg h1, if_neg h2, if_neg h3, if_neg h4]
  split at e'
  · rcases or_ok e' with e1 | e1
    · obtain ⟨r1, u, e2, e3⟩ := bind_ok e1
      have w1 := congrArg List.length (tag_ok e2)
      rw [List.length_append] at w1
      have w2 : ("__vector(".toList).length = 9 := by decide +kernel
      have w3 : H false (n + 1 - 9) (do
          let v ← R.valueLike false true
          P.char ')'
          pure (Ast.dVec v)) := by
        have w4 : H true (n + 1 - 9) (R.valueLike false true) :=
          ⟨(h.value _ _).1.monoLe (by omega), fun s hs => (h.value _ _).2 s (by omega)⟩
        htac
      have w5 := ((w3.1 r1 (by omega)).2.2 _ _ e3).1
      have := declWeight_suffix q1
      have w6 := w5.length_le
      have : opCount r ≤ opCount s := opCount_suffix q1
      unfold declWeight
      omega
    · exact hmem e1
  · split at e'
    · rcases or_ok e' with e1 | e1
      · obtain ⟨r1, c, e2, e3⟩ := bind_ok e1
        cases e3
        have := cvSome_length e2
        have : opCount r ≤ opCount s := opCount_suffix q1
        unfold declWeight
        omega
      · exact hmem e1
    · exact hmem e'

theorem stepDeclarator (h : HR n R) : H false (n + 1) (stepDeclarator R) := by
  have h2 := h.declOperator (b := true)
  have h3 : H true (n + 1) (spaced (Cpp.declOperator R)) := by htac
  unfold Cpp.stepDeclarator
  refine H.bindQF (H.many0G h3) (fun l => l.length < 2 ^ 8)
    (fun s r l hn hs e => ?_) fun l hl => H.internSeq _ _ hl
  have := many0_weight h3.1 declWeight 5 (fun s r a hn e => ?_) hn e
  · have h4 := hs.ops
    have h5 := hs.short
    unfold declWeight at this
    omega
  · obtain ⟨r1, u, e1, e2⟩ := bind_ok e
    have q1 := h.declOperator_weight hn e1
    obtain ⟨r2, v, e3, e4⟩ := bind_ok e2
    cases e4
    have := declWeight_suffix (Suff.space0 _ _ _ e3)
    omega

theorem simpleType (h : HR n R) : H b (n + 1) (simpleType R) := by
  have h2 := h.idExpression (b := true)
  unfold Cpp.simpleType; htac

theorem attributes (h : HR n R) : H false (n + 1) (attributes R) := by
  have h2 := h.functionCall (b := true)
  unfold Cpp.attributes
  refine H.bindF (H.opt (b := true) (by htac)) fun a => ?_
  cases a <;> htac

theorem stepTypeLike (h : HR n R) : H b (n + 1) (stepTypeLike R) := by
  have h1 := h.attributes
  have h2 := h.simpleType (b := true)
  have h3 := h.stepDeclarator
  unfold Cpp.stepTypeLike; htac

theorem step (h : HR n R) : HR (n + 1) (step R) :=
  ⟨h.stepTypeLike, fun ac ag => h.stepValueLike ac ag, h.stepDeclarator⟩

end HR

/-! ## C50 -/

theorem grammar_safe : ∀ n, HR n grammar
  | 0 => ⟨⟨(grammar_good 0).ty, fun s hs => by omega⟩, fun ac ag => ⟨(grammar_good 0).value ac ag, fun s hs => by omega⟩,
      ⟨(grammar_good 0).decl, fun s hs => by omega⟩⟩
  | n + 1 => by
    have h := (grammar_safe n).step
    rw [grammar_fixpoint] at h
    exact h

/-- **C50.** `parse_entity` does not panic on texts of fewer than 768 characters with at most 62
operator characters, where the locations of anonymous entities are absolute paths and no
operator character is doubled unless this makes a C++ operator. -/
theorem c50_safe (s : Input) (hs : Safe s) : parseEntity s ≠ .panic := by
  have h1 := (grammar_safe (s.length + 1)).ty
  have h2 : H false (s.length + 1) P.eof := H.ofG (G.ofSuff Suff.eof fun s => by
    cases s <;> simp [P.eof]) fun s => by cases s <;> simp [P.eof]
  have h3 : H false (s.length + 1) parseEntity := by
    unfold parseEntity
    refine H.bindF (H.or (H.bindS h1 fun _ => by htac) (by htac)) fun e => by htac
  exact h3.2 s (by omega) hs

end Verif.Cpp
