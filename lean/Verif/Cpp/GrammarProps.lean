/-
C49: the grammar of C++ entities is well defined: every parser leaves a suffix of
its input, the recursion ends on every input, and the functions of the model
satisfy the recursive equations of the code.
-/
import Verif.Cpp.Grammar
import Verif.Cpp.AtomsProps

set_option autoImplicit false
set_option linter.unusedVariables false
set_option linter.unusedSimpArgs false

namespace Verif.Cpp

/-- On inputs shorter than `n`: two parsers agree, do not run out of nested calls, and
leave a suffix of their input, a strictly shorter one if `b`. -/
def G {α : Type} (b : Bool) (n : Nat) (p p' : P α) : Prop :=
  ∀ s : Input, s.length < n → p s = p' s ∧ p s ≠ .fuel ∧
    ∀ r a, p s = .ok r a → r <:+ s ∧ (b = true → r.length < s.length)

namespace G

variable {α β : Type} {b c : Bool} {n m : Nat}

theorem weaken {p p' : P α} (h : G true n p p') : G b n p p' := fun s hs =>
  ⟨(h s hs).1, (h s hs).2.1, fun r a e => ⟨((h s hs).2.2 r a e).1, fun _ => ((h s hs).2.2 r a e).2 rfl⟩⟩

theorem toFalse {p p' : P α} (h : G b n p p') : G false n p p' := fun s hs =>
  ⟨(h s hs).1, (h s hs).2.1, fun r a e => ⟨((h s hs).2.2 r a e).1, fun e => by cases e⟩⟩

theorem mono {p p' : P α} (h : G b (n + 1) p p') : G b n p p' := fun s hs => h s (by omega)

theorem monoLe {p p' : P α} (h : G b n p p') (hm : m ≤ n) : G b m p p' := fun s hs => h s (by omega)

theorem ofSuff {p : P α} (h : Suff p) (hf : ∀ s, p s ≠ .fuel) : G false n p p := fun s _ =>
  ⟨rfl, hf s, fun r a e => ⟨h s r a e, fun e => by cases e⟩⟩

theorem ofProg {p : P α} (h : Prog p) (hf : ∀ s, p s ≠ .fuel) : G b n p p := fun s _ =>
  ⟨rfl, hf s, fun r a e => ⟨(h s r a e).1, fun _ => (h s r a e).2⟩⟩

theorem pure (a : α) : G false n (Pure.pure a : P α) (Pure.pure a) :=
  ofSuff (Suff.pure a) (fun s => by simp)

theorem fail : G b n (P.fail : P α) P.fail := ofProg Prog.fail (fun s => by simp [P.fail])

theorem crash : G b n (P.crash : P α) P.crash := ofProg Prog.crash (fun s => by simp [P.crash])

theorem bindT {p p' : P α} {f f' : α → P β} (hp : G true (n + 1) p p')
    (hf : ∀ a, G false n (f a) (f' a)) : G b (n + 1) (p >>= f) (p' >>= f') := by
  intro s hs
  obtain ⟨h1, h2, h3⟩ := hp s hs
  rw [P.bind_run, P.bind_run, ← h1]
  cases hps : p s with
  | ok r a =>
    obtain ⟨hr, hl⟩ := h3 r a hps
    have hl := hl rfl
    obtain ⟨g1, g2, g3⟩ := hf a r (by omega)
    refine ⟨g1, g2, fun r' b' e => ⟨(g3 r' b' e).1.trans hr, fun _ => ?_⟩⟩
    have := (g3 r' b' e).1.length_le
    omega
  | err => exact ⟨rfl, by simp, by simp⟩
  | panic => exact ⟨rfl, by simp, by simp⟩
  | fuel => exact absurd hps h2

theorem bindS {p p' : P α} {f f' : α → P β} (hp : G true n p p')
    (hf : ∀ a, G false n (f a) (f' a)) : G b n (p >>= f) (p' >>= f') := by
  cases n with
  | zero => intro s hs; omega
  | succ n => exact bindT hp fun a => (hf a).mono

theorem bindF {p p' : P α} {f f' : α → P β} (hp : G false n p p')
    (hf : ∀ a, G b n (f a) (f' a)) : G b n (p >>= f) (p' >>= f') := by
  intro s hs
  obtain ⟨h1, h2, h3⟩ := hp s hs
  rw [P.bind_run, P.bind_run, ← h1]
  cases hps : p s with
  | ok r a =>
    obtain ⟨hr, -⟩ := h3 r a hps
    have hl := hr.length_le
    obtain ⟨g1, g2, g3⟩ := hf a r (by omega)
    refine ⟨g1, g2, fun r' b' e => ⟨(g3 r' b' e).1.trans hr, fun hb => ?_⟩⟩
    have := (g3 r' b' e).2 hb
    omega
  | err => exact ⟨rfl, by simp, by simp⟩
  | panic => exact ⟨rfl, by simp, by simp⟩
  | fuel => exact absurd hps h2

theorem or {p p' q q' : P α} (hp : G b n p p') (hq : G b n q q') : G b n (p.or q) (p'.or q') := by
  intro s hs
  obtain ⟨h1, h2, h3⟩ := hp s hs
  unfold P.or
  rw [← h1]
  cases hps : p s with
  | ok r a => exact ⟨rfl, by simp, fun r' a' e => by cases e; exact h3 r a hps⟩
  | err => exact hq s hs
  | panic => exact ⟨rfl, by simp, by simp⟩
  | fuel => exact absurd hps h2

theorem opt {p p' : P α} (hp : G b n p p') : G false n p.opt p'.opt := by
  intro s hs
  obtain ⟨h1, h2, h3⟩ := hp s hs
  unfold P.opt
  rw [← h1]
  cases hps : p s with
  | ok r a => exact ⟨rfl, by simp, fun r' a' e => by cases e; exact ⟨(h3 r a hps).1, by simp⟩⟩
  | err => exact ⟨rfl, by simp, fun r' a' e => by cases e; exact ⟨List.suffix_refl _, by simp⟩⟩
  | panic => exact ⟨rfl, by simp, by simp⟩
  | fuel => exact absurd hps h2

theorem peek {p p' : P α} (hp : G b n p p') : G false n p.peek p'.peek := by
  intro s hs
  obtain ⟨h1, h2, h3⟩ := hp s hs
  unfold P.peek
  rw [← h1]
  cases hps : p s with
  | ok r a => exact ⟨rfl, by simp, fun r' a' e => by cases e; exact ⟨List.suffix_refl _, by simp⟩⟩
  | err => exact ⟨rfl, by simp, by simp⟩
  | panic => exact ⟨rfl, by simp, by simp⟩
  | fuel => exact absurd hps h2

theorem ite {q : Prop} [Decidable q] {p p' r r' : P α} (hp : G b n p p') (hr : G b n r r') :
    G b n (if q then p else r) (if q then p' else r') := by split <;> assumption

theorem mapOptG {p p' : P α} {f : α → Option β} (hp : G b n p p') : G b n (p.mapOpt f) (p'.mapOpt f) := by
  have key : ∀ a, G false n (match f a with | some b => Pure.pure b | none => P.fail : P β)
      (match f a with | some b => Pure.pure b | none => P.fail) := by
    intro a
    cases f a with
    | some b => exact pure b
    | none => exact fail
  cases b with
  | true => exact bindS hp key
  | false => exact bindF hp key

theorem verifyG {p p' : P α} {f : α → Bool} (hp : G b n p p') : G b n (p.verify f) (p'.verify f) := by
  have key : ∀ a, G false n (if f a then Pure.pure a else P.fail : P α)
      (if f a then Pure.pure a else P.fail) := fun a => ite (pure a) fail
  cases b with
  | true => exact bindS hp key
  | false => exact bindF hp key

theorem byHead {f f' : Option Char → P α} (h : ∀ o, G b n (f o) (f' o)) :
    G b n (P.byHead f) (P.byHead f') := fun s hs => h s.head? s hs

theorem many0G {p p' : P α} (hp : G true n p p') : G false n (P.many0 p) (P.many0 p') := by
  intro s
  induction hk : s.length using Nat.strong_induction_on generalizing s with
  | _ k ih =>
    intro hs
    obtain ⟨h1, h2, h3⟩ := hp s (by omega)
    rw [P.many0_run, P.many0_run, ← h1]
    cases hps : p s with
    | err => exact ⟨rfl, by simp, fun r a e => by cases e; exact ⟨List.suffix_refl _, by simp⟩⟩
    | panic => exact ⟨rfl, by simp, by simp⟩
    | fuel => exact absurd hps h2
    | ok r a =>
      obtain ⟨hr, hl⟩ := h3 r a hps
      have hl := hl rfl
      simp only [if_pos hl]
      obtain ⟨g1, g2, g3⟩ := ih r.length (by omega) r rfl (by omega)
      rw [← g1]
      cases hm : P.many0 p r with
      | ok r' as =>
        refine ⟨rfl, by simp, fun r'' a'' e => ?_⟩
        cases e
        exact ⟨(g3 _ _ hm).1.trans hr, by simp⟩
      | err => exact ⟨rfl, by simp, by simp⟩
      | panic => exact ⟨rfl, by simp, by simp⟩
      | fuel => exact absurd hm g2

theorem sepTermTail {p p' : P α} {sep sep' term term' : P Unit} (hp : G c n p p')
    (hs : G true n sep sep') (ht : G false n term term') :
    G false n (P.sepTermTail p sep term) (P.sepTermTail p' sep' term') := by
  have hb : G true n (sep >>= fun _ => p) (sep' >>= fun _ => p') := bindS hs fun _ => hp.toFalse
  intro s
  induction hk : s.length using Nat.strong_induction_on generalizing s with
  | _ k ih =>
    intro hs
    obtain ⟨t1, t2, t3⟩ := ht s (by omega)
    obtain ⟨h1, h2, h3⟩ := hb s (by omega)
    rw [P.sepTermTail, P.sepTermTail, ← t1, ← h1]
    cases hts : term s with
    | ok r a => exact ⟨rfl, by simp, fun r' a' e => by cases e; exact ⟨(t3 r a hts).1, by simp⟩⟩
    | panic => exact ⟨rfl, by simp, by simp⟩
    | fuel => exact absurd hts t2
    | err =>
      simp only
      cases hps : (sep >>= fun _ => p) s with
      | err => exact ⟨rfl, by simp, by simp⟩
      | panic => exact ⟨rfl, by simp, by simp⟩
      | fuel => exact absurd hps h2
      | ok r a =>
        obtain ⟨hr, hl⟩ := h3 r a hps
        have hl := hl rfl
        simp only [if_pos hl]
        obtain ⟨g1, g2, g3⟩ := ih r.length (by omega) r rfl (by omega)
        rw [← g1]
        cases hm : P.sepTermTail p sep term r with
        | ok r' as =>
          refine ⟨rfl, by simp, fun r'' a'' e => ?_⟩
          cases e
          exact ⟨(g3 _ _ hm).1.trans hr, by simp⟩
        | err => exact ⟨rfl, by simp, by simp⟩
        | panic => exact ⟨rfl, by simp, by simp⟩
        | fuel => exact absurd hm g2

theorem sepTerm {p p' : P α} {sep sep' term term' : P Unit} (hp : G b n p p')
    (hs : G true n sep sep') (ht : G false n term term') :
    G b n (P.sepTerm p sep term) (P.sepTerm p' sep' term') := by
  have key : ∀ a, G false n ((P.sepTermTail p sep term : P (List α)) >>= fun as => Pure.pure (a :: as))
      ((P.sepTermTail p' sep' term' : P (List α)) >>= fun as => Pure.pure (a :: as)) :=
    fun a => bindF (sepTermTail hp hs ht) fun as => pure _
  cases b with
  | true => exact bindS hp key
  | false => exact bindF hp key

theorem tag (w : String) (hw : w.toList ≠ []) : G b n (P.tag w) (P.tag w) :=
  ofProg (Prog.tag hw) fun s => by
    rcases tagL_cases w.toList s with ⟨r, h⟩ | h <;> simp [P.tag, h]

theorem char (c : Char) : G b n (P.char c) (P.char c) :=
  ofProg (Prog.char c) fun s => by
    cases s with
    | nil => simp [P.char]
    | cons d ds => simp only [P.char]; split <;> simp

theorem anychar : G b n P.anychar P.anychar :=
  ofProg Prog.anychar fun s => by cases s <;> simp [P.anychar]

theorem takeWhile1 (f : Char → Bool) : G b n (P.takeWhile1 f) (P.takeWhile1 f) :=
  ofProg (Prog.takeWhile1 f) fun s => by
    simp only [P.takeWhile1, P.verify, P.bind_run, P.takeWhile]
    split <;> simp [P.fail, P.pure]

theorem space0 : G false n P.space0 P.space0 :=
  ofSuff Suff.space0 fun s => by simp [P.space0, P.bind_run, P.takeWhile, P.pure]

theorem space1 : G b n P.space1 P.space1 := bindS (takeWhile1 _) fun _ => pure _

theorem endOfIdentifier : G false n endOfIdentifier endOfIdentifier :=
  ofSuff Suff.endOfIdentifier fun s => by
    cases s with
    | nil => simp [Cpp.endOfIdentifier]
    | cons d ds => simp only [Cpp.endOfIdentifier]; split <;> simp

theorem identifier : G b n identifier identifier :=
  ofProg Prog.identifier fun s => by
    cases s with
    | nil => simp [Cpp.identifier]
    | cons d ds => simp only [Cpp.identifier]; split <;> simp

theorem keyword (w : String) (hw : w.toList ≠ []) : G b n (keyword w) (keyword w) :=
  bindS (tag w hw) fun _ => endOfIdentifier

theorem keywords (t : List (String × α)) (h : ∀ e ∈ t, e.1.toList ≠ []) :
    G b n (keywords t) (keywords t) :=
  ofProg (Prog.keywords t h) fun s => by
    induction t with
    | nil => simp [Cpp.keywords]
    | cons e es ih =>
      simp only [Cpp.keywords]
      split
      · simp
      · exact ih (fun e he => h e (by simp [he]))

theorem charSp (c : Char) : G b n (P.charSp c) (P.charSp c) := bindS (char c) fun _ => space0
theorem spChar (c : Char) : G b n (P.spChar c) (P.spChar c) := bindF space0 fun _ => char c
theorem spCharSp (c : Char) : G b n (P.spCharSp c) (P.spCharSp c) :=
  bindF space0 fun _ => bindS (char c) fun _ => space0
theorem uint (k : Nat) : G b n (P.uint k) (P.uint k) := mapOptG (takeWhile1 _)

theorem spacedG {p p' : P α} (hp : G b n p p') : G b n (spaced p) (spaced p') := by
  cases b with
  | true => exact bindS hp fun a => bindF space0 fun _ => pure _
  | false => exact bindF hp fun a => bindF space0 fun _ => pure _

theorem internSeq {s : S} (k : Nat) (l : List (Ast s)) : G false n (internSeq k l) (internSeq k l) :=
  ite (pure _) crash

theorem parseCv : G false n parseCv parseCv :=
  bindF (many0G (spacedG (keywords _ cvTable_ne))) fun _ => pure _

theorem parseReference : G false n parseReference parseReference := mapOptG (many0G (char _))

theorem parseLegacyName : G b n parseLegacyName parseLegacyName := by
  refine bindS (n := n) (bindS (spacedG (keywords _ legacyTable_ne)) fun a =>
    bindF (many0G (spacedG (keywords _ legacyTable_ne))) fun _ => pure _) fun l => ?_
  cases l.foldl legacyStep (some LBuilder.empty) with
  | none => exact fail
  | some b =>
    simp only
    cases b.build with
    | name n => exact pure n
    | error => exact fail
    | unreachable => exact crash

theorem symbol : G b n symbol symbol := mapOptG anychar

end G

/-- Apply the rules of `G`. -/
syntax "gtac" : tactic
macro_rules
  | `(tactic| gtac) => `(tactic| first
    | assumption
    | exact G.weaken (by assumption)
    | exact G.toFalse (by assumption)
    | exact G.mono (by assumption)
    | exact G.mono (G.weaken (by assumption))
    | exact G.mono (G.toFalse (by assumption))
    | with_reducible exact G.pure _
    | with_reducible exact G.fail
    | with_reducible exact G.crash
    | with_reducible exact G.anychar
    | with_reducible exact G.space0
    | with_reducible exact G.space1
    | with_reducible exact G.identifier
    | with_reducible exact G.parseCv
    | with_reducible exact G.parseReference
    | with_reducible exact G.parseLegacyName
    | with_reducible exact G.symbol
    | with_reducible exact G.char _
    | with_reducible exact G.takeWhile1 _
    | with_reducible exact G.charSp _
    | with_reducible exact G.spChar _
    | with_reducible exact G.spCharSp _
    | with_reducible exact G.uint _
    | with_reducible exact G.internSeq _ _
    | ((with_reducible refine G.tag _ ?_); decide +kernel)
    | ((with_reducible refine G.keyword _ ?_); decide +kernel)
    | ((with_reducible refine G.keywords _ ?_); decide +kernel)
    | ((with_reducible refine G.spacedG ?_) <;> gtac)
    | ((with_reducible refine G.or ?_ ?_) <;> gtac)
    | ((with_reducible refine G.opt (b := true) ?_) <;> gtac)
    | ((with_reducible refine G.opt (b := false) ?_) <;> gtac)
    | ((with_reducible refine G.peek (b := false) ?_) <;> gtac)
    | ((with_reducible refine G.many0G ?_) <;> gtac)
    | ((with_reducible refine G.mapOptG ?_) <;> gtac)
    | ((with_reducible refine G.verifyG ?_) <;> gtac)
    | ((with_reducible refine G.bindT ?_ (fun _ => ?_)) <;> gtac)
    | ((with_reducible refine G.bindS ?_ (fun _ => ?_)) <;> gtac)
    | ((with_reducible refine G.bindF ?_ (fun _ => ?_)) <;> gtac)
    | ((with_reducible refine G.ite ?_ ?_) <;> gtac))

namespace G

variable {α β : Type} {b c : Bool} {n m : Nat}

theorem int64 : G b n int64 int64 := by unfold Cpp.int64; gtac
theorem integer : G b n integer integer := by
  have := @int64 true n
  unfold Cpp.integer; gtac
theorem octEscape : G b n octEscape octEscape := by unfold Cpp.octEscape; gtac
theorem hexEscape : G b n hexEscape hexEscape := by unfold Cpp.hexEscape; gtac
theorem charVal (x y : Char) : G b n (charVal x y) (charVal x y) := by unfold Cpp.charVal; gtac
theorem escapeSequence : G b n escapeSequence escapeSequence := by
  have h1 := @octEscape b n
  have h2 := @hexEscape false n
  unfold Cpp.escapeSequence
  iterate 6 refine or (charVal _ _) ?_
  gtac
theorem character : G b n character character := by
  have := @escapeSequence true n
  unfold Cpp.character; gtac
theorem literal : G b n literal literal := by
  have h1 := @integer true n
  have h2 := @character true n
  unfold Cpp.literal; gtac

end G


/-! ## Sequences that are not empty -/

theorem many0_nonempty {α : Type} {p : P α} (hp : Prog p) {s r : Input} {l : List α}
    (h : P.many0 p s = .ok r l) (hl : l ≠ []) : r.length < s.length := by
  rw [P.many0_run] at h
  cases hps : p s with
  | err => rw [hps] at h; cases h; exact absurd rfl hl
  | panic => rw [hps] at h; cases h
  | fuel => rw [hps] at h; cases h
  | ok r1 a =>
    rw [hps] at h
    simp only [if_pos (hp _ _ _ hps).2] at h
    cases hm : P.many0 p r1 with
    | ok r' as =>
      rw [hm] at h; cases h
      have := (Suff.many0 hp.suff _ _ _ hm).length_le
      have := (hp _ _ _ hps).2
      omega
    | err => rw [hm] at h; cases h
    | panic => rw [hm] at h; cases h
    | fuel => rw [hm] at h; cases h

theorem bind_ok {α β : Type} {p : P α} {f : α → P β} {s r : Input} {b : β}
    (h : (p >>= f) s = .ok r b) : ∃ r1 a, p s = .ok r1 a ∧ f a r1 = .ok r b := by
  rw [P.bind_run] at h
  cases hp : p s with
  | ok r1 a => rw [hp] at h; exact ⟨r1, a, rfl, h⟩
  | err => rw [hp] at h; cases h
  | panic => rw [hp] at h; cases h
  | fuel => rw [hp] at h; cases h

theorem verify_ok {α : Type} {p : P α} {f : α → Bool} {s r : Input} {a : α}
    (h : p.verify f s = .ok r a) : p s = .ok r a ∧ f a = true := by
  obtain ⟨r1, a1, h1, h2⟩ := bind_ok h
  split at h2
  · rename_i hf; cases h2; exact ⟨h1, hf⟩
  · cases h2

theorem mapOpt_ok {α β : Type} {p : P α} {f : α → Option β} {s r : Input} {b : β}
    (h : p.mapOpt f s = .ok r b) : ∃ a, p s = .ok r a ∧ f a = some b := by
  obtain ⟨r1, a1, h1, h2⟩ := bind_ok h
  cases hf : f a1 with
  | some b' => rw [hf] at h2; cases h2; exact ⟨a1, h1, hf⟩
  | none => rw [hf] at h2; cases h2

theorem Prog.cvSome : Prog (P.verify parseCv fun c => c != CV.none) := by
  intro s r c h
  obtain ⟨h1, h2⟩ := verify_ok h
  obtain ⟨r1, l, h3, h4⟩ := bind_ok h1
  cases h4
  refine ⟨Suff.parseCv _ _ _ h1, many0_nonempty (Prog.spaced (Prog.keywords _ cvTable_ne)) h3 ?_⟩
  rintro rfl
  simp at h2

theorem Prog.refSome : Prog (P.verify parseReference fun c => c != Ref.none) := by
  intro s r c h
  obtain ⟨h1, h2⟩ := verify_ok h
  obtain ⟨l, h3, h4⟩ := mapOpt_ok h1
  refine ⟨Suff.parseReference _ _ _ h1, many0_nonempty (Prog.char _) h3 ?_⟩
  rintro rfl
  cases h4
  simp at h2

theorem G.cvSome {b : Bool} {n : Nat} : G b n (P.verify Cpp.parseCv fun c => c != CV.none)
    (P.verify Cpp.parseCv fun c => c != CV.none) :=
  ofProg Prog.cvSome fun s => ((G.verifyG G.parseCv) s (Nat.lt_succ_self s.length)).2.1

theorem G.refSome {b : Bool} {n : Nat} : G b n (P.verify Cpp.parseReference fun c => c != Ref.none)
    (P.verify Cpp.parseReference fun c => c != Ref.none) :=
  ofProg Prog.refSome fun s => ((G.verifyG G.parseReference) s (Nat.lt_succ_self s.length)).2.1

/-! ## The recursive functions -/

/-- The recursive functions agree on inputs shorter than `n`. -/
structure GR (n : Nat) (R R' : Calls) : Prop where
  ty : G true n R.typeLike R'.typeLike
  value : ∀ ac ag, G true n (R.valueLike ac ag) (R'.valueLike ac ag)
  decl : G false n R.declarator R'.declarator

namespace GR

variable {n : Nat} {R R' : Calls} {b : Bool}

theorem functionCall (h : GR n R R') : G b (n + 1) (functionCall R) (functionCall R') := by
  have hs : G true n (P.sepTerm (R.valueLike false true) (P.spCharSp ',') (P.spChar ')'))
      (P.sepTerm (R'.valueLike false true) (P.spCharSp ',') (P.spChar ')')) :=
    G.sepTerm (h.value _ _) (G.spCharSp _) (G.spChar _)
  unfold Cpp.functionCall; gtac

theorem parameterOrEllipsis (h : GR n R R') :
    G b n (parameterOrEllipsis R) (parameterOrEllipsis R') := by
  have h1 := h.ty
  unfold Cpp.parameterOrEllipsis; gtac

theorem parameterSet (h : GR n R R') : G b (n + 1) (parameterSet R) (parameterSet R') := by
  have hs : G true n (P.sepTerm (Cpp.parameterOrEllipsis R) (P.spCharSp ',') (P.spChar ')'))
      (P.sepTerm (Cpp.parameterOrEllipsis R') (P.spCharSp ',') (P.spChar ')')) :=
    G.sepTerm h.parameterOrEllipsis (G.spCharSp _) (G.spChar _)
  unfold Cpp.parameterSet
  refine G.bindT (G.charSp _) fun _ => G.or (G.bindS hs fun l => ?_) (by gtac)
  gtac

theorem parenValue (h : GR n R R') (ac ag : Bool) :
    G b (n + 1) (parenValue R ac ag) (parenValue R' ac ag) := by
  have h1 := h.value ac ag
  unfold Cpp.parenValue; gtac

theorem noexceptQ (h : GR n R R') : G b (n + 1) (noexceptQ R) (noexceptQ R') := by
  have h1 := h.parenValue (b := true) false true
  unfold Cpp.noexceptQ; gtac

theorem _root_.Verif.Cpp.G.abiTag : G b n abiTag abiTag := by unfold Cpp.abiTag; gtac

theorem trailingReturn (h : GR n R R') : G b (n + 1) (trailingReturn R) (trailingReturn R') := by
  have h1 := h.ty
  unfold Cpp.trailingReturn; gtac

theorem functionSignature (h : GR n R R') :
    G b (n + 1) (functionSignature R) (functionSignature R') := by
  have h1 := @G.abiTag n.succ true
  have h2 := h.parameterSet (b := true)
  have h3 := h.noexceptQ (b := true)
  have h4 := h.trailingReturn (b := true)
  unfold Cpp.functionSignature; gtac

theorem templateParameter (h : GR n R R') : G b n (templateParameter R) (templateParameter R') := by
  have h1 := h.ty
  have h2 := h.value false false
  have h3 : G false n tparamEnd tparamEnd := by unfold tparamEnd; gtac
  unfold Cpp.templateParameter; gtac

theorem templateParameters (h : GR n R R') :
    G b (n + 1) (templateParameters R) (templateParameters R') := by
  have hs : G true n (P.sepTerm (Cpp.templateParameter R) (P.spCharSp ',') (P.spChar '>'))
      (P.sepTerm (Cpp.templateParameter R') (P.spCharSp ',') (P.spChar '>')) :=
    G.sepTerm h.templateParameter (G.spCharSp _) (G.spChar _)
  unfold Cpp.templateParameters; gtac

theorem _root_.Verif.Cpp.G.pathText : G b n pathText pathText := by
  unfold Cpp.pathText
  refine G.bindF (G.opt (b := true) (by gtac)) fun d => G.bindS (G.takeWhile1 _) fun t => ?_
  cases d <;> gtac

theorem _root_.Verif.Cpp.G.internPath (p : List Char) : G false n (internPath p) (internPath p) := by
  unfold Cpp.internPath; gtac

theorem _root_.Verif.Cpp.G.sourceLocation : G b n sourceLocation sourceLocation := by
  have h1 := @G.pathText n true
  unfold Cpp.sourceLocation
  refine G.bindS h1 fun t => G.bindF (G.internPath t) fun f => ?_
  gtac

theorem _root_.Verif.Cpp.G.clangLambda : G b n clangLambda clangLambda := by
  have h1 := @G.sourceLocation n true
  unfold Cpp.clangLambda; gtac

theorem _root_.Verif.Cpp.G.clangAnonymous : G b n clangAnonymous clangAnonymous := by
  have h1 := @G.sourceLocation n true
  unfold Cpp.clangAnonymous; gtac

theorem libibertyLambda (h : GR n R R') : G b (n + 1) (libibertyLambda R) (libibertyLambda R') := by
  have h1 := h.functionSignature (b := true)
  unfold Cpp.libibertyLambda; gtac

theorem _root_.Verif.Cpp.G.libibertyUnnamed : G b n libibertyUnnamed libibertyUnnamed := by
  unfold Cpp.libibertyUnnamed; gtac

theorem anonymous (h : GR n R R') : G b (n + 1) (anonymous R) (anonymous R') :=
  G.byHead fun c => G.ite (G.or G.clangLambda G.clangAnonymous)
    (G.or h.libibertyLambda G.libibertyUnnamed)

theorem arithAndTemplates (h : GR n R R') {p : P ArithOp} (hp : ∀ m, G true m p p) :
    G b (n + 1) (arithAndTemplates R p) (arithAndTemplates R' p) := by
  have h1 := h.templateParameters (b := true)
  unfold Cpp.arithAndTemplates
  refine G.bindT (hp _) fun o => G.bindF (by gtac) fun _ => G.bindF (by gtac) fun tp =>
    G.bindF (by gtac) fun sym => ?_
  cases sym <;> gtac

theorem _root_.Verif.Cpp.G.arith1 : G b n arith1 arith1 := by unfold Cpp.arith1; gtac
theorem _root_.Verif.Cpp.G.arith2 : G b n arith2 arith2 := by unfold Cpp.arith2; gtac
theorem _root_.Verif.Cpp.G.arith3 : G b n arith3 arith3 := by unfold Cpp.arith3; gtac
theorem _root_.Verif.Cpp.G.customLiteral : G b n customLiteral customLiteral := by
  unfold Cpp.customLiteral; gtac
theorem _root_.Verif.Cpp.G.callOrIndex : G b n callOrIndex callOrIndex := by
  unfold Cpp.callOrIndex; gtac
theorem _root_.Verif.Cpp.G.newOverload : G b n newOverload newOverload := by
  unfold Cpp.newOverload; gtac
theorem _root_.Verif.Cpp.G.deleteOp : G b n deleteOp deleteOp := by unfold Cpp.deleteOp; gtac
theorem _root_.Verif.Cpp.G.coAwaitOp : G b n coAwaitOp coAwaitOp := by unfold Cpp.coAwaitOp; gtac

theorem otherOverload (h : GR n R R') : G b (n + 1) (otherOverload R) (otherOverload R') := by
  have h1 := h.ty
  have h2 := @G.customLiteral n.succ true
  have h3 := @G.callOrIndex n.succ true
  have h4 := @G.newOverload n.succ true
  have h5 := @G.deleteOp n.succ true
  have h6 := @G.coAwaitOp n.succ true
  unfold Cpp.otherOverload; gtac

theorem operatorOverload (h : GR n R R') :
    G b (n + 1) (operatorOverload R) (operatorOverload R') := by
  have h1 := h.arithAndTemplates (b := true) (fun m => @G.arith1 m true)
  have h2 := h.arithAndTemplates (b := true) (fun m => @G.arith2 m true)
  have h3 := h.arithAndTemplates (b := true) (fun m => @G.arith3 m true)
  have h4 := h.otherOverload (b := true)
  have h5 := h.templateParameters (b := true)
  unfold Cpp.operatorOverload; gtac

theorem named (h : GR n R R') (d : Bool) : G b (n + 1) (named R d) (named R' d) := by
  have h5 := h.templateParameters (b := true)
  unfold Cpp.named; gtac

theorem operatorId (h : GR n R R') : G b (n + 1) (operatorId R) (operatorId R') := by
  have h5 := h.operatorOverload (b := true)
  unfold Cpp.operatorId; gtac

theorem decltypeId (h : GR n R R') : G b (n + 1) (decltypeId R) (decltypeId R') := by
  have h5 := h.value false true
  unfold Cpp.decltypeId; gtac

theorem unqualifiedId (h : GR n R R') : G b (n + 1) (unqualifiedId R) (unqualifiedId R') := by
  have h1 := h.anonymous (b := true)
  have h2 := h.decltypeId (b := true)
  have h3 := h.operatorId (b := true)
  have h4 := h.named (b := true) true
  have h5 := h.named (b := true) false
  refine G.byHead fun c => ?_
  gtac

theorem scopeEnd (h : GR n R R') : G b (n + 1) (scopeEnd R) (scopeEnd R') := by
  have h1 := h.functionSignature (b := true)
  have h2 : G true n.succ cvOrRef cvOrRef := by
    have := @G.cvSome true n.succ
    have := @G.refSome true n.succ
    unfold cvOrRef; gtac
  unfold Cpp.scopeEnd; gtac

theorem scopeOrUid (h : GR n R R') : G b (n + 1) (scopeOrUid R) (scopeOrUid R') := by
  unfold Cpp.scopeOrUid
  refine G.bindS h.unqualifiedId fun u => G.bindF (G.opt h.scopeEnd (b := true)) fun e => ?_
  cases e <;> gtac

/-- The loop over scopes, with more precise facts about its result. -/
theorem _root_.Verif.Cpp.protoLoop_spec {p p' : P (Ast .scope ⊕ Ast .uid)} (hp : G true n p p') :
    ∀ s : Input, s.length < n → protoLoop p s = protoLoop p' s ∧ protoLoop p s ≠ .fuel ∧
      ∀ r l o, protoLoop p s = .ok r (l, o) → r <:+ s ∧ (o.isSome → r.length < s.length) ∧
        ∀ x, o = some x → x.1 <:+ s := by
  intro s
  induction hk : s.length using Nat.strong_induction_on generalizing s with
  | _ k ih =>
    intro hs
    obtain ⟨h1, h2, h3⟩ := hp s (by omega)
    rw [protoLoop, protoLoop, ← h1]
    cases hps : p s with
    | err =>
      refine ⟨rfl, by simp, fun r l o e => ?_⟩
      cases e
      exact ⟨List.suffix_refl _, by simp, by simp⟩
    | panic => exact ⟨rfl, by simp, by simp⟩
    | fuel => exact absurd hps h2
    | ok r a =>
      obtain ⟨hr, hl⟩ := h3 r a hps
      have hl := hl rfl
      cases a with
      | inr u =>
        refine ⟨rfl, by simp, fun r' l o e => ?_⟩
        cases e
        refine ⟨hr, fun _ => by omega, fun x hx => ?_⟩
        cases hx
        exact List.suffix_refl _
      | inl sc =>
        simp only [if_pos hl]
        obtain ⟨g1, g2, g3⟩ := ih r.length (by omega) r rfl (by omega)
        rw [← g1]
        cases hm : protoLoop p r with
        | ok r' x =>
          obtain ⟨l, o⟩ := x
          refine ⟨rfl, by simp, fun r'' l' o' e => ?_⟩
          cases e
          obtain ⟨q1, q2, q3⟩ := g3 _ _ _ hm
          exact ⟨q1.trans hr, fun ho => by have := q2 ho; omega, fun x hx => (q3 x hx).trans hr⟩
        | err => exact ⟨rfl, by simp, by simp⟩
        | panic => exact ⟨rfl, by simp, by simp⟩
        | fuel => exact absurd hm g2

theorem _root_.Verif.Cpp.G.protoLoop {p p' : P (Ast .scope ⊕ Ast .uid)} (hp : G true n p p') :
    G false n (protoLoop p : P _) (protoLoop p') := fun s hs =>
  have h := protoLoop_spec hp s hs
  ⟨h.1, h.2.1, fun r a e => ⟨(h.2.2 r a.1 a.2 e).1, by simp⟩⟩

theorem protoIdExpression (h : GR n R R') :
    G false (n + 1) (protoIdExpression R) (protoIdExpression R') := by
  have h1 := G.protoLoop (h.scopeOrUid (b := true))
  unfold Cpp.protoIdExpression
  refine G.bindF (by gtac) fun _ => G.bindF h1 fun x => ?_
  gtac

/-- More precise facts about what the parser of id-expressions returns. -/
theorem protoIdExpression_spec (h : GR n R R') (s : Input) (hs : s.length < n + 1) (r : Input)
    (p : Ast .path) (o : Option (Input × Ast .uid))
    (e : Cpp.protoIdExpression R s = .ok r (p, o)) :
    (o.isSome → r.length < s.length) ∧ ∀ x, o = some x → x.1 <:+ s := by
  obtain ⟨r1, a1, e1, e2⟩ := bind_ok e
  obtain ⟨r2, x, e3, e4⟩ := bind_ok e2
  obtain ⟨r3, sc, e5, e6⟩ := bind_ok e4
  have hr1 : r1 <:+ s := Suff.opt (Suff.tag _) _ _ _ e1
  have hr1l := hr1.length_le
  obtain ⟨-, -, q3⟩ := protoLoop_spec (h.scopeOrUid (b := true)) r1 (by omega)
  obtain ⟨q4, q5, q6⟩ := q3 r2 x.1 x.2 e3
  have hr3 : r3 <:+ r2 := by
    unfold Cpp.internSeq at e5
    split at e5
    · cases e5; exact List.suffix_refl _
    · cases e5
  cases e6
  refine ⟨fun ho => ?_, fun y hy => (q6 y hy).trans hr1⟩
  have := q5 ho
  have := hr3.length_le
  omega

theorem idExpression (h : GR n R R') : G b (n + 1) (idExpression R) (idExpression R') := by
  have h0 : G false (n + 1) (Cpp.idExpression R) (Cpp.idExpression R') := by
    unfold Cpp.idExpression
    refine G.bindF h.protoIdExpression fun x => ?_
    cases x.2 <;> gtac
  intro s hs
  refine ⟨(h0 s hs).1, (h0 s hs).2.1, fun r a e => ⟨((h0 s hs).2.2 r a e).1, fun _ => ?_⟩⟩
  obtain ⟨r1, x, e1, e2⟩ := bind_ok e
  obtain ⟨p, o⟩ := x
  cases o with
  | none => cases e2
  | some y =>
    cases e2
    exact (h.protoIdExpression_spec s hs _ _ _ e1).1 rfl

theorem nestedNameSpecifier (h : GR n R R') :
    G false (n + 1) (nestedNameSpecifier R) (nestedNameSpecifier R') := by
  intro s hs
  obtain ⟨h1, h2, h3⟩ := h.protoIdExpression s hs
  unfold Cpp.nestedNameSpecifier
  rw [← h1]
  cases e : Cpp.protoIdExpression R s with
  | ok r x =>
    obtain ⟨p, o⟩ := x
    cases o with
    | none => exact ⟨rfl, by simp, fun r' a' e' => by cases e'; exact ⟨(h3 _ _ e).1, by simp⟩⟩
    | some y =>
      refine ⟨rfl, by simp, fun r' a' e' => ?_⟩
      cases e'
      exact ⟨(h.protoIdExpression_spec s hs _ _ _ e).2 y rfl, by simp⟩
  | err => exact ⟨rfl, by simp, by simp⟩
  | panic => exact ⟨rfl, by simp, by simp⟩
  | fuel => exact absurd e h2

theorem _root_.Verif.Cpp.G.incDec : G b n incDec incDec := by unfold Cpp.incDec; gtac
theorem _root_.Verif.Cpp.G.unarySymbol : G b n unarySymbol unarySymbol := by
  unfold Cpp.unarySymbol; gtac

theorem castPrefix (h : GR n R R') : G b (n + 1) (castPrefix R) (castPrefix R') := by
  have h1 := h.ty
  unfold Cpp.castPrefix; gtac

theorem unaryPrefix (h : GR n R R') : G b (n + 1) (unaryPrefix R) (unaryPrefix R') := by
  have h1 := h.castPrefix (b := true)
  have h2 := @G.incDec n.succ true
  have h3 := @G.unarySymbol n.succ true
  have h5 := @G.deleteOp n.succ true
  have h6 := @G.coAwaitOp n.succ true
  unfold Cpp.unaryPrefix; gtac

theorem newExpression (h : GR n R R') : G b (n + 1) (newExpression R) (newExpression R') := by
  have h1 := h.ty
  have h2 := h.functionCall (b := true)
  unfold Cpp.newExpression; gtac

theorem unaryOp (h : GR n R R') (ac ag : Bool) :
    G b (n + 1) (unaryOp R ac ag) (unaryOp R' ac ag) := by
  have h1 := h.unaryPrefix (b := true)
  have h2 := h.value ac ag
  unfold Cpp.unaryOp; gtac

theorem ofType (h : GR n R R') (w : String) (hw : w.toList ≠ []) (f : Ast .ty → Ast .header) :
    G b (n + 1) (ofType R w f) (ofType R' w f) := by
  have h1 := h.ty
  exact G.bindT (G.tag w hw) fun _ => by gtac

theorem valueHeader (h : GR n R R') (ac ag : Bool) :
    G b (n + 1) (valueHeader R ac ag) (valueHeader R' ac ag) := by
  have h1 := @G.literal true n.succ
  have h2 := h.newExpression (b := true)
  have h3 := h.ofType (b := true) "sizeof(" (by decide +kernel) .hSizeOf
  have h4 := h.ofType (b := true) "declval(" (by decide +kernel) .hDeclVal
  have h5 := h.idExpression (b := true)
  have h6 := h.unaryOp (b := true) ac ag
  have h7 := h.parenValue (b := true) true true
  unfold Cpp.valueHeader; gtac

theorem _root_.Verif.Cpp.G.binaryExprMiddle (ac ag : Bool) :
    G b n (binaryExprMiddle ac ag) (binaryExprMiddle ac ag) := by
  unfold Cpp.binaryExprMiddle
  refine G.or (G.or G.arith3 (G.bindS G.arith2 fun op => ?_)) (G.bindS G.arith1 fun op => ?_)
  all_goals
    repeat' split
    all_goals gtac

theorem binaryOp (h : GR n R R') (ac ag : Bool) :
    G b (n + 1) (binaryOp R ac ag) (binaryOp R' ac ag) := by
  have h1 := @G.binaryExprMiddle n.succ true ac ag
  have h2 := h.value ac ag
  unfold Cpp.binaryOp; gtac

theorem ternaryOp (h : GR n R R') (ac ag : Bool) :
    G b (n + 1) (ternaryOp R ac ag) (ternaryOp R' ac ag) := by
  have h2 := h.value ac ag
  unfold Cpp.ternaryOp; gtac

theorem arrayIndex (h : GR n R R') : G b (n + 1) (arrayIndex R) (arrayIndex R') := by
  have h2 := h.value false true
  unfold Cpp.arrayIndex; gtac

theorem memberAccess (h : GR n R R') : G b (n + 1) (memberAccess R) (memberAccess R') := by
  have h2 := h.unqualifiedId (b := true)
  unfold Cpp.memberAccess; gtac

theorem afterValue (h : GR n R R') (ac ag : Bool) :
    G b (n + 1) (afterValue R ac ag) (afterValue R' ac ag) := by
  have h1 := h.functionCall (b := true)
  have h2 := h.ternaryOp (b := true) ac ag
  have h3 := h.memberAccess (b := true)
  have h4 := h.arrayIndex (b := true)
  have h5 := h.binaryOp (b := true) ac ag
  have h6 := @G.incDec n.succ true
  refine G.byHead fun c => ?_
  gtac

theorem stepValueLike (h : GR n R R') (ac ag : Bool) :
    G b (n + 1) (stepValueLike R ac ag) (stepValueLike R' ac ag) := by
  have h1 := h.valueHeader (b := true) ac ag
  have h2 := h.afterValue (b := true) ac ag
  unfold Cpp.stepValueLike; gtac

theorem _root_.Verif.Cpp.G.cvRestrict : G false n cvRestrict cvRestrict := by
  unfold Cpp.cvRestrict; gtac

theorem _root_.Verif.Cpp.G.basicPointer : G b n basicPointer basicPointer := by
  have := @G.cvRestrict n
  unfold Cpp.basicPointer; gtac

theorem memberPointer (h : GR n R R') : G b (n + 1) (memberPointer R) (memberPointer R') := by
  have h1 := h.nestedNameSpecifier
  have h2 := @G.cvRestrict n.succ
  unfold Cpp.memberPointer; gtac

theorem arrayDecl (h : GR n R R') : G b (n + 1) (arrayDecl R) (arrayDecl R') := by
  have h2 := h.value false true
  unfold Cpp.arrayDecl; gtac

theorem parenDecl (h : GR n R R') : G b (n + 1) (parenDecl R) (parenDecl R') := by
  have h2 := h.decl
  unfold Cpp.parenDecl; gtac

theorem vectorDecl (h : GR n R R') : G b (n + 1) (vectorDecl R) (vectorDecl R') := by
  have h2 := h.value false true
  unfold Cpp.vectorDecl; gtac

theorem _root_.Verif.Cpp.G.cvDecl : G b n cvDecl cvDecl := by
  have := @G.cvSome true n
  unfold Cpp.cvDecl; gtac

theorem funDecl (h : GR n R R') : G b (n + 1) (funDecl R) (funDecl R') := by
  have h2 := h.functionSignature (b := true)
  unfold Cpp.funDecl; gtac

/-- A reference declarator that starts with `&` consumes it. -/
theorem _root_.Verif.Cpp.ref_progress {t r : Input} {x : Ref}
    (h : Cpp.parseReference ('&' :: t) = .ok r x) : r.length < t.length + 1 := by
  obtain ⟨l, h3, -⟩ := mapOpt_ok h
  have := many0_nonempty (Prog.char _) h3 (by
    rintro rfl
    rw [P.many0_run] at h3
    simp only [P.char, if_true] at h3
    split at h3
    · split at h3 <;> cases h3
    · cases h3)
  simpa using this

theorem declOperator (h : GR n R R') : G b (n + 1) (declOperator R) (declOperator R') := by
  have h2 := h.funDecl (b := true)
  have h3 := h.parenDecl (b := true)
  have h4 := h.memberPointer (b := true)
  have h5 := h.arrayDecl (b := true)
  have h6 := h.vectorDecl (b := true)
  have h7 := @G.cvDecl n.succ true
  have h8 := @G.basicPointer n.succ true
  refine G.weaken fun s hs => ?_
  by_cases hc : s.head? = some '&'
  · obtain ⟨t, rfl⟩ : ∃ t, s = '&' :: t := by
      cases s with
      | nil => cases hc
      | cons c t => cases hc; exact ⟨t, rfl⟩
    have h1 : G false (n + 1) (do let r ← Cpp.parseReference; pure (Ast.dRef r))
        (do let r ← Cpp.parseReference; pure (Ast.dRef r)) := by gtac
    have e : ∀ R, Cpp.declOperator R ('&' :: t) = (do let r ← Cpp.parseReference; pure (Ast.dRef r)) ('&' :: t) :=
      fun R => rfl
    rw [e, e]
    refine ⟨(h1 _ hs).1, (h1 _ hs).2.1, fun r a e => ⟨((h1 _ hs).2.2 r a e).1, fun _ => ?_⟩⟩
    obtain ⟨r1, x, e1, e2⟩ := bind_ok e
    cases e2
    simpa using ref_progress e1
  · have e : ∀ R, Cpp.declOperator R s = (if s.head? = some '*' then Cpp.basicPointer
      else if s.head? = some '(' then P.or (P.or (Cpp.funDecl R) (Cpp.parenDecl R)) (Cpp.memberPointer R)
      else if s.head? = some '[' then P.or (Cpp.funDecl R) (Cpp.arrayDecl R)
      else if s.head? = some '_' then P.or (Cpp.vectorDecl R) (Cpp.memberPointer R)
      else if s.head? = some 'c' ∨ s.head? = some 'v' then P.or Cpp.cvDecl (Cpp.memberPointer R)
      else Cpp.memberPointer R) s := by
      intro R
      show (if s.head? = some '&' then _ else _ : P _) s = _
      rw [if_neg hc]
    rw [e, e]
    revert s
    intro s hs hc e
    have := G.ite (q := s.head? = some '*') h8 (G.ite (q := s.head? = some '(') (G.or (G.or h2 h3) h4)
      (G.ite (q := s.head? = some '[') (G.or h2 h5) (G.ite (q := s.head? = some '_') (G.or h6 h4)
        (G.ite (q := s.head? = some 'c' ∨ s.head? = some 'v') (G.or h7 h4) h4))))
    exact this s hs

theorem stepDeclarator (h : GR n R R') :
    G false (n + 1) (stepDeclarator R) (stepDeclarator R') := by
  have h2 := h.declOperator (b := true)
  unfold Cpp.stepDeclarator; gtac

theorem simpleType (h : GR n R R') : G b (n + 1) (simpleType R) (simpleType R') := by
  have h2 := h.idExpression (b := true)
  unfold Cpp.simpleType; gtac

theorem attributes (h : GR n R R') : G false (n + 1) (attributes R) (attributes R') := by
  have h2 := h.functionCall (b := true)
  unfold Cpp.attributes
  refine G.bindF (G.opt (b := true) (by gtac)) fun a => ?_
  cases a <;> gtac

theorem stepTypeLike (h : GR n R R') : G b (n + 1) (stepTypeLike R) (stepTypeLike R') := by
  have h1 := h.attributes
  have h2 := h.simpleType (b := true)
  have h3 := h.stepDeclarator
  unfold Cpp.stepTypeLike; gtac

theorem step (h : GR n R R') : GR (n + 1) (step R) (step R') :=
  ⟨h.stepTypeLike, fun ac ag => h.stepValueLike ac ag, h.stepDeclarator⟩

end GR

/-! ## Enough nested calls -/

theorem level_spec : ∀ n m, n ≤ m → GR n (level n) (level m)
  | 0, m, _ => ⟨fun s hs => by omega, fun _ _ s hs => by omega, fun s hs => by omega⟩
  | n + 1, 0, h => by omega
  | n + 1, m + 1, h => (level_spec n m (by omega)).step

/-- The functions of the model, as a record. -/
def grammar : Calls := ⟨typeLike, valueLike, declarator⟩

theorem level_grammar (n : Nat) : GR n (level n) grammar := by
  refine ⟨fun s hs => ?_, fun ac ag s hs => ?_, fun s hs => ?_⟩
  · have h1 := (level_spec n n (Nat.le_refl n)).ty s hs
    refine ⟨?_, h1.2⟩
    exact ((level_spec (s.length + 1) n (by omega)).ty s (by omega)).1.symm
  · have h1 := (level_spec n n (Nat.le_refl n)).value ac ag s hs
    refine ⟨?_, h1.2⟩
    exact ((level_spec (s.length + 1) n (by omega)).value ac ag s (by omega)).1.symm
  · have h1 := (level_spec n n (Nat.le_refl n)).decl s hs
    refine ⟨?_, h1.2⟩
    exact ((level_spec (s.length + 1) n (by omega)).decl s (by omega)).1.symm

theorem G.symm {α : Type} {b : Bool} {n : Nat} {p p' : P α} (h : G b n p p') : G b n p' p' :=
  fun s hs => ⟨rfl, (h s hs).1 ▸ (h s hs).2.1, (h s hs).1 ▸ (h s hs).2.2⟩

theorem GR.right {n : Nat} {R R' : Calls} (h : GR n R R') : GR n R' R' :=
  ⟨h.ty.symm, fun ac ag => (h.value ac ag).symm, h.decl.symm⟩

/-- The functions of the model have the properties `G` on all inputs. -/
theorem grammar_good (n : Nat) : GR n grammar grammar := (level_grammar n).right

/-- **C49.** The functions of the model satisfy the mutually recursive equations of the
code (the bodies of `parse_type_like`, `parse_value_like` and `parse_declarator`, with
recursive calls to the same functions). -/
theorem grammar_fixpoint : step grammar = grammar := by
  have h1 : stepTypeLike grammar = typeLike := by
    funext s
    exact ((level_grammar s.length).stepTypeLike (b := true) s (by omega)).1.symm
  have h2 : ∀ ac ag, stepValueLike grammar ac ag = valueLike ac ag := by
    intro ac ag
    funext s
    exact ((level_grammar s.length).stepValueLike (b := true) ac ag s (by omega)).1.symm
  have h3 : stepDeclarator grammar = declarator := by
    funext s
    exact ((level_grammar s.length).stepDeclarator s (by omega)).1.symm
  show (⟨stepTypeLike grammar, stepValueLike grammar, stepDeclarator grammar⟩ : Calls) = ⟨_, _, _⟩
  rw [h1, h3, funext fun ac => funext fun ag => h2 ac ag]

theorem Suff.ofG {α : Type} {p : P α} (h : ∀ n, G false n p p) : Suff p := fun s r a e =>
  ((h (s.length + 1) s (by omega)).2.2 r a e).1

theorem Prog.ofG {α : Type} {p : P α} (h : ∀ n, G true n p p) : Prog p := fun s r a e =>
  ⟨((h (s.length + 1) s (by omega)).2.2 r a e).1, ((h (s.length + 1) s (by omega)).2.2 r a e).2 rfl⟩

theorem nofuelG {α : Type} {b : Bool} {p : P α} (h : ∀ n, G b n p p) (s : Input) : p s ≠ .fuel :=
  (h (s.length + 1) s (by omega)).2.1

/-! ## C49 -/

/-- Any solution of the recursive equations agrees with `level n` on inputs shorter than `n`. -/
theorem level_solution {g : Calls} (hg : step g = g) : ∀ n, GR n (level n) g
  | 0 => ⟨fun s hs => by omega, fun _ _ s hs => by omega, fun s hs => by omega⟩
  | n + 1 => by
    have h := (level_solution hg n).step
    rw [hg] at h
    exact h

/-- **C49.** The recursive equations of the code have exactly one solution: the result of every
recursive function is determined, on every input, by unfolding them. -/
theorem grammar_unique (g : Calls) : step g = g ↔ g = grammar := by
  refine ⟨fun hg => ?_, fun hg => hg ▸ grammar_fixpoint⟩
  obtain ⟨t, v, d⟩ := g
  have h := level_solution hg
  have h1 : t = typeLike := funext fun s => ((h (s.length + 1)).ty s (by omega)).1.symm
  have h2 : v = valueLike := funext fun ac => funext fun ag => funext fun s =>
    ((h (s.length + 1)).value ac ag s (by omega)).1.symm
  have h3 : d = declarator := funext fun s => ((h (s.length + 1)).decl s (by omega)).1.symm
  subst h1 h2 h3
  rfl

/-- What C49 requires of one parser: it ends on every input, and when it succeeds the
remainder is a suffix of the input. -/
def Ends {α : Type} (p : P α) : Prop :=
  ∀ s, p s ≠ .fuel ∧ ∀ r a, p s = .ok r a → ∃ consumed, s = consumed ++ r

/-- Same, and the parser consumes at least one character. -/
def EndsProgress {α : Type} (p : P α) : Prop :=
  ∀ s, p s ≠ .fuel ∧ ∀ r a, p s = .ok r a → ∃ consumed, consumed ≠ [] ∧ s = consumed ++ r

theorem Ends.ofG {α : Type} {p : P α} (h : ∀ n, G false (n + 1) p p) : Ends p := fun s =>
  ⟨(h s.length s (by omega)).2.1, fun r a e => by
    obtain ⟨t, ht⟩ := ((h s.length s (by omega)).2.2 r a e).1
    exact ⟨t, ht.symm⟩⟩

theorem EndsProgress.ofG {α : Type} {p : P α} (h : ∀ n, G true (n + 1) p p) : EndsProgress p := fun s =>
  ⟨(h s.length s (by omega)).2.1, fun r a e => by
    obtain ⟨h1, h2⟩ := (h s.length s (by omega)).2.2 r a e
    obtain ⟨t, ht⟩ := h1
    refine ⟨t, ?_, ht.symm⟩
    rintro rfl
    have := h2 rfl
    simp only [List.nil_append] at ht
    rw [ht] at this
    omega⟩

/-- **C49.** All the parsing functions of `EntityParser` end on every input; when they
succeed the remainder is a suffix of the input.  All of them consume something except
those for declarators and nested name specifiers, which may be empty. -/
theorem c49_parsers_end :
    EndsProgress typeLike ∧ (∀ ac ag, EndsProgress (valueLike ac ag)) ∧ Ends declarator ∧
    EndsProgress (functionCall grammar) ∧ EndsProgress (functionSignature grammar) ∧
    EndsProgress (templateParameters grammar) ∧ EndsProgress (anonymous grammar) ∧
    EndsProgress (operatorOverload grammar) ∧ EndsProgress (unqualifiedId grammar) ∧
    EndsProgress (idExpression grammar) ∧ Ends (nestedNameSpecifier grammar) ∧
    EndsProgress (unaryPrefix grammar) ∧ EndsProgress (newExpression grammar) ∧
    EndsProgress (simpleType grammar) ∧ EndsProgress literal ∧
    (∀ ac ag, EndsProgress (binaryExprMiddle ac ag)) := by
  have h := grammar_good
  exact ⟨.ofG fun n => (h (n + 1)).ty, fun ac ag => .ofG fun n => (h (n + 1)).value ac ag,
    .ofG fun n => (h (n + 1)).decl, .ofG fun n => (h n).functionCall,
    .ofG fun n => (h n).functionSignature, .ofG fun n => (h n).templateParameters,
    .ofG fun n => (h n).anonymous, .ofG fun n => (h n).operatorOverload,
    .ofG fun n => (h n).unqualifiedId, .ofG fun n => (h n).idExpression,
    .ofG fun n => (h n).nestedNameSpecifier, .ofG fun n => (h n).unaryPrefix,
    .ofG fun n => (h n).newExpression, .ofG fun n => (h n).simpleType, .ofG fun n => G.literal,
    fun ac ag => .ofG fun n => G.binaryExprMiddle ac ag⟩

/-- **C49.** `parse_entity` ends on every input, and succeeds only by consuming all of it:
either the input is `<unknown>`, or it is a whole type. -/
theorem c49_entity (s : Input) :
    parseEntity s ≠ .fuel ∧
    ∀ r e, parseEntity s = .ok r e →
      r = [] ∧ ((e = none ∧ s = "<unknown>".toList) ∨ ∃ t, e = some t ∧ typeLike s = .ok [] t) := by
  have ht : ∀ n, G true n typeLike typeLike := fun n => (grammar_good n).ty
  constructor
  · have he : ∀ n, G false n P.eof P.eof := fun n => G.ofSuff Suff.eof fun s => by
      cases s <;> simp [P.eof]
    have : ∀ n, G false n parseEntity parseEntity := by
      intro n
      have h1 := ht n
      have h2 := he n
      unfold parseEntity
      exact G.bindF (G.or (by gtac) (by gtac)) fun e => by gtac
    exact nofuelG this s
  · intro r e h
    obtain ⟨r1, e1, h1, h2⟩ := bind_ok h
    obtain ⟨r2, u, h3, h4⟩ := bind_ok h2
    have hr1 : r1 = [] ∧ r2 = [] := by
      cases r1 with
      | nil => cases h3; exact ⟨rfl, rfl⟩
      | cons c t => cases h3
    obtain ⟨rfl, rfl⟩ := hr1
    cases h4
    refine ⟨rfl, ?_⟩
    unfold P.or at h1
    cases h5 : (do let t ← typeLike; pure (some t) : P (Option (Ast .ty))) s with
    | ok r a =>
      rw [h5] at h1
      cases h1
      obtain ⟨r2, t, h6, h7⟩ := bind_ok h5
      cases h7
      exact Or.inr ⟨t, rfl, h6⟩
    | err =>
      rw [h5] at h1
      obtain ⟨r2, t, h6, h7⟩ := bind_ok h1
      cases h7
      have := tag_ok h6
      exact Or.inl ⟨rfl, by simpa using this⟩
    | panic => rw [h5] at h1; cases h1
    | fuel => rw [h5] at h1; cases h1

/-- The empty text is no entity. -/
theorem c49_empty : parseEntity [] = .err := by
  have h : typeLike [] = .err := by
    with_unfolding_all rfl
  simp only [parseEntity, P.bind_run, P.or, h]
  rfl

end Verif.Cpp
