/-
The parser combinators that `cpparser` is written with.

`cpparser` uses the `nom` 7 and `nom-supreme` combinators.  Their behaviour is
modelled here from their documentation: the crates are not part of /repo.

A parser takes the input that remains to be parsed and returns one of

* `ok rest a`: success with output `a`, `rest` remains to be parsed;
* `err`: a recoverable error (`nom::Err::Error`; the error contents, which no
  code of the crate looks at, are not modelled; `nom::Err::Failure` is never
  produced by the crate, as it never uses `cut`);
* `panic`: the thread panics;
* `fuel`: an artefact of the model, which cuts off the recursion of the grammar
  after a number of nested calls.  It is proved in `Grammar` that the top-level
  functions never return it.

Inputs are lists of characters rather than byte strings.
-/
import Mathlib.Data.List.Basic
import Mathlib.Data.List.Infix

set_option autoImplicit false
set_option linter.unusedVariables false

namespace Verif.Cpp

/-- Text being parsed. -/
abbrev Input := List Char

/-- Result of a parser (`nom::IResult`, plus panics and the artefact `fuel`). -/
inductive Res (α : Type) where
  | ok (rest : Input) (a : α)
  | err
  | panic
  | fuel
  deriving DecidableEq

/-- A parser. -/
def P (α : Type) := Input → Res α

namespace P

/-- Always succeed, consuming nothing. -/
def pure {α : Type} (a : α) : P α := fun s => .ok s a

/-- Run a parser then another one that depends on its output. -/
def bind {α β : Type} (p : P α) (f : α → P β) : P β := fun s =>
  match p s with
  | .ok r a => f a r
  | .err => .err
  | .panic => .panic
  | .fuel => .fuel

instance : Monad P where
  pure := P.pure
  bind := P.bind

@[simp] theorem pure_run {α : Type} (a : α) (s : Input) : (Pure.pure a : P α) s = .ok s a := rfl

theorem bind_run {α β : Type} (p : P α) (f : α → P β) (s : Input) :
    (p >>= f) s = match p s with
      | .ok r a => f a r
      | .err => .err
      | .panic => .panic
      | .fuel => .fuel := rfl

/-- Always fail. -/
def fail {α : Type} : P α := fun _ => .err

/-- Panic (`panic!`, `unreachable!`, `expect` on a failure). -/
def crash {α : Type} : P α := fun _ => .panic

/-- `p.or(q)`: try the second parser on the same input if the first one fails. -/
def or {α : Type} (p q : P α) : P α := fun s =>
  match p s with
  | .err => q s
  | r => r

/-- `p.opt()` / `nom::combinator::opt`. -/
def opt {α : Type} (p : P α) : P (Option α) := fun s =>
  match p s with
  | .ok r a => .ok r (some a)
  | .err => .ok s none
  | .panic => .panic
  | .fuel => .fuel

/-- `peek`: run a parser without consuming its input. -/
def peek {α : Type} (p : P α) : P α := fun s =>
  match p s with
  | .ok _ a => .ok s a
  | r => r

/-- `p.map_opt(f)` / `p.verify(..)` / `p.map_res(f)`: fail when `f` rejects the
output. -/
def mapOpt {α β : Type} (p : P α) (f : α → Option β) : P β := do
  let a ← p
  match f a with
  | some b => pure b
  | none => fail

/-- `p.verify(f)`. -/
def verify {α : Type} (p : P α) (f : α → Bool) : P α := do
  let a ← p
  if f a then pure a else fail

/-- The list of successive outputs of `fold_many0` / `many0` / `many0_count`:
repeat until the parser fails.  A success that consumes nothing is an error
(nom's protection against infinite loops). -/
def many0Run {α : Type} (p : P α) (s : Input) : Res (List α) :=
  match p s with
  | .err => .ok s []
  | .panic => .panic
  | .fuel => .fuel
  | .ok r a =>
    if r.length < s.length then
      match many0Run p r with
      | .ok r' as => .ok r' (a :: as)
      | .err => .err
      | .panic => .panic
      | .fuel => .fuel
    else .err
termination_by s.length

/-- `many0Run` as a parser. -/
def many0 {α : Type} (p : P α) : P (List α) := fun s => many0Run p s

theorem many0_run {α : Type} (p : P α) (s : Input) : many0 p s =
    match p s with
    | .err => .ok s []
    | .panic => .panic
    | .fuel => .fuel
    | .ok r a =>
      if r.length < s.length then
        match many0 p r with
        | .ok r' as => .ok r' (a :: as)
        | .err => .err
        | .panic => .panic
        | .fuel => .fuel
      else .err := by
  unfold many0; rw [many0Run]

/-- `fold_many1`: at least one output. -/
def many1 {α : Type} (p : P α) : P (List α) := do
  let a ← p
  let as ← many0 p
  pure (a :: as)

/-- `nom_supreme::tag::complete::tag`. -/
def tagL : List Char → P Unit
  | [], s => .ok s ()
  | _ :: _, [] => .err
  | c :: cs, d :: ds => if c = d then tagL cs ds else .err

/-- Tag given by a string literal. -/
def tag (w : String) : P Unit := tagL w.toList

/-- `nom::character::complete::char`. -/
def char (c : Char) : P Unit := fun s =>
  match s with
  | d :: ds => if d = c then .ok ds () else .err
  | [] => .err

/-- `nom::character::complete::anychar`. -/
def anychar : P Char := fun s =>
  match s with
  | d :: ds => .ok ds d
  | [] => .err

/-- `nom::combinator::eof`. -/
def eof : P Unit := fun s =>
  match s with
  | [] => .ok [] ()
  | _ :: _ => .err

/-- `take_while(f)` (possibly empty). -/
def takeWhile (f : Char → Bool) : P (List Char) := fun s =>
  .ok (s.dropWhile f) (s.takeWhile f)

/-- `take_while1(f)`. -/
def takeWhile1 (f : Char → Bool) : P (List Char) :=
  (takeWhile f).verify fun t => !t.isEmpty

/-- Characters skipped by `multispace0` and `multispace1`. -/
def isSpace (c : Char) : Bool := c == ' ' || c == '\t' || c == '\r' || c == '\n'

/-- `nom::character::complete::multispace0`. -/
def space0 : P Unit := do let _ ← takeWhile isSpace; pure ()

/-- `nom::character::complete::multispace1`. -/
def space1 : P Unit := do let _ ← takeWhile1 isSpace; pure ()

end P

/-! ## Behaviour that every combinator has: the remainder is a suffix -/

/-- A parser that, when it succeeds, leaves a suffix of its input. -/
def Suff {α : Type} (p : P α) : Prop := ∀ s r a, p s = .ok r a → r <:+ s

/-- A parser that, when it succeeds, leaves a strictly shorter suffix of its input. -/
def Prog {α : Type} (p : P α) : Prop :=
  ∀ s r a, p s = .ok r a → r <:+ s ∧ r.length < s.length

theorem Prog.suff {α : Type} {p : P α} (h : Prog p) : Suff p := fun s r a e => (h s r a e).1

theorem Suff.pure {α : Type} (a : α) : Suff (Pure.pure a : P α) := by
  intro s r b h
  simp only [P.pure_run, Res.ok.injEq] at h
  exact h.1 ▸ List.suffix_refl _

theorem Suff.bind {α β : Type} {p : P α} {f : α → P β} (hp : Suff p) (hf : ∀ a, Suff (f a)) :
    Suff (p >>= f) := by
  intro s r b h
  rw [P.bind_run] at h
  cases hps : p s with
  | ok r1 a => rw [hps] at h; exact (hf a _ _ _ h).trans (hp _ _ _ hps)
  | err => rw [hps] at h; cases h
  | panic => rw [hps] at h; cases h
  | fuel => rw [hps] at h; cases h

theorem Prog.bind_left {α β : Type} {p : P α} {f : α → P β} (hp : Prog p) (hf : ∀ a, Suff (f a)) :
    Prog (p >>= f) := by
  intro s r b h
  rw [P.bind_run] at h
  cases hps : p s with
  | ok r1 a =>
    rw [hps] at h
    have h1 := hf a _ _ _ h
    have h2 := hp _ _ _ hps
    exact ⟨h1.trans h2.1, lt_of_le_of_lt h1.length_le h2.2⟩
  | err => rw [hps] at h; cases h
  | panic => rw [hps] at h; cases h
  | fuel => rw [hps] at h; cases h

theorem Prog.bind_right {α β : Type} {p : P α} {f : α → P β} (hp : Suff p) (hf : ∀ a, Prog (f a)) :
    Prog (p >>= f) := by
  intro s r b h
  rw [P.bind_run] at h
  cases hps : p s with
  | ok r1 a =>
    rw [hps] at h
    have h1 := hf a _ _ _ h
    have h2 := hp _ _ _ hps
    exact ⟨h1.1.trans h2, lt_of_lt_of_le h1.2 h2.length_le⟩
  | err => rw [hps] at h; cases h
  | panic => rw [hps] at h; cases h
  | fuel => rw [hps] at h; cases h

theorem Suff.fail {α : Type} : Suff (P.fail : P α) := by intro s r a h; cases h
theorem Suff.crash {α : Type} : Suff (P.crash : P α) := by intro s r a h; cases h
theorem Prog.fail {α : Type} : Prog (P.fail : P α) := by intro s r a h; cases h
theorem Prog.crash {α : Type} : Prog (P.crash : P α) := by intro s r a h; cases h

theorem Suff.or {α : Type} {p q : P α} (hp : Suff p) (hq : Suff q) : Suff (p.or q) := by
  intro s r a h
  unfold P.or at h
  cases hps : p s with
  | err => rw [hps] at h; exact hq _ _ _ h
  | ok r1 a1 => rw [hps] at h; exact hp _ _ _ (hps.trans h)
  | panic => rw [hps] at h; cases h
  | fuel => rw [hps] at h; cases h

theorem Prog.or {α : Type} {p q : P α} (hp : Prog p) (hq : Prog q) : Prog (p.or q) := by
  intro s r a h
  unfold P.or at h
  cases hps : p s with
  | err => rw [hps] at h; exact hq _ _ _ h
  | ok r1 a1 => rw [hps] at h; exact hp _ _ _ (hps.trans h)
  | panic => rw [hps] at h; cases h
  | fuel => rw [hps] at h; cases h

theorem Suff.opt {α : Type} {p : P α} (hp : Suff p) : Suff p.opt := by
  intro s r a h
  unfold P.opt at h
  cases hps : p s with
  | err => rw [hps] at h; cases h; exact List.suffix_refl _
  | ok r1 a1 => rw [hps] at h; cases h; exact hp _ _ _ hps
  | panic => rw [hps] at h; cases h
  | fuel => rw [hps] at h; cases h

theorem Suff.peek {α : Type} {p : P α} : Suff p.peek := by
  intro s r a h
  unfold P.peek at h
  cases hps : p s with
  | err => rw [hps] at h; cases h
  | ok r1 a1 => rw [hps] at h; cases h; exact List.suffix_refl _
  | panic => rw [hps] at h; cases h
  | fuel => rw [hps] at h; cases h

theorem Suff.mapOpt {α β : Type} {p : P α} {f : α → Option β} (hp : Suff p) :
    Suff (p.mapOpt f) := by
  refine Suff.bind hp fun a => ?_
  cases f a with
  | some b => exact Suff.pure b
  | none => exact Suff.fail

theorem Prog.mapOpt {α β : Type} {p : P α} {f : α → Option β} (hp : Prog p) :
    Prog (p.mapOpt f) := by
  refine Prog.bind_left hp fun a => ?_
  cases f a with
  | some b => exact Suff.pure b
  | none => exact Suff.fail

theorem Suff.ite {α : Type} {c : Prop} [Decidable c] {p q : P α} (hp : Suff p) (hq : Suff q) :
    Suff (if c then p else q) := by split <;> assumption
theorem Prog.ite {α : Type} {c : Prop} [Decidable c] {p q : P α} (hp : Prog p) (hq : Prog q) :
    Prog (if c then p else q) := by split <;> assumption

theorem Suff.verify {α : Type} {p : P α} {f : α → Bool} (hp : Suff p) : Suff (p.verify f) :=
  Suff.bind hp fun a => Suff.ite (Suff.pure a) Suff.fail
theorem Prog.verify {α : Type} {p : P α} {f : α → Bool} (hp : Prog p) : Prog (p.verify f) :=
  Prog.bind_left hp fun a => Suff.ite (Suff.pure a) Suff.fail

theorem Suff.many0 {α : Type} {p : P α} (hp : Suff p) : Suff (P.many0 p) := by
  intro s
  induction hn : s.length using Nat.strong_induction_on generalizing s with
  | _ n ih =>
    intro r a h
    rw [P.many0_run] at h
    cases hps : p s with
    | err => rw [hps] at h; cases h; exact List.suffix_refl _
    | panic => rw [hps] at h; cases h
    | fuel => rw [hps] at h; cases h
    | ok r1 a1 =>
      rw [hps] at h
      simp only at h
      split at h
      · rename_i hlt
        cases hm : P.many0 p r1 with
        | ok r' as =>
          rw [hm] at h; cases h
          exact (ih _ (hn ▸ hlt) r1 rfl _ _ hm).trans (hp _ _ _ hps)
        | err => rw [hm] at h; cases h
        | panic => rw [hm] at h; cases h
        | fuel => rw [hm] at h; cases h
      · cases h

theorem Suff.many1 {α : Type} {p : P α} (hp : Suff p) : Suff (P.many1 p) :=
  Suff.bind hp fun a => Suff.bind (Suff.many0 hp) fun as => Suff.pure _

theorem Prog.many1 {α : Type} {p : P α} (hp : Prog p) : Prog (P.many1 p) :=
  Prog.bind_left hp fun a => Suff.bind (Suff.many0 hp.suff) fun as => Suff.pure _

theorem tagL_ok {w s r : List Char} {a : Unit} (h : P.tagL w s = .ok r a) : s = w ++ r := by
  induction w generalizing s with
  | nil => cases h; rfl
  | cons c cs ih =>
    cases s with
    | nil => cases h
    | cons d ds =>
      simp only [P.tagL] at h
      split at h
      · rename_i hcd; rw [ih h, hcd]; rfl
      · cases h

@[simp] theorem tagL_append (w r : List Char) : P.tagL w (w ++ r) = .ok r () := by
  induction w with
  | nil => rfl
  | cons c cs ih => simp [P.tagL, ih]

theorem tag_ok {w : String} {s r : List Char} {a : Unit} (h : P.tag w s = .ok r a) :
    s = w.toList ++ r := tagL_ok h

theorem tagL_cases (w s : List Char) : (∃ r, P.tagL w s = .ok r ()) ∨ P.tagL w s = .err := by
  induction w generalizing s with
  | nil => exact Or.inl ⟨s, rfl⟩
  | cons c cs ih =>
    cases s with
    | nil => exact Or.inr rfl
    | cons d ds =>
      simp only [P.tagL]
      split
      · exact ih ds
      · exact Or.inr rfl

theorem Suff.tag (w : String) : Suff (P.tag w) := by
  intro s r a h
  rw [tag_ok h]; exact List.suffix_append _ _

theorem Prog.tag {w : String} (hw : w.toList ≠ []) : Prog (P.tag w) := by
  intro s r a h
  rw [tag_ok h]
  refine ⟨List.suffix_append _ _, ?_⟩
  have := List.length_pos_iff.2 hw
  simp only [List.length_append]; omega

theorem Prog.char (c : Char) : Prog (P.char c) := by
  intro s r a h
  cases s with
  | nil => cases h
  | cons d ds =>
    simp only [P.char] at h
    split at h
    · cases h; exact ⟨List.suffix_cons _ _, by simp⟩
    · cases h

theorem Prog.anychar : Prog P.anychar := by
  intro s r a h
  cases s with
  | nil => cases h
  | cons d ds => cases h; exact ⟨List.suffix_cons _ _, by simp⟩

theorem Suff.eof : Suff P.eof := by
  intro s r a h
  cases s with
  | nil => cases h; exact List.suffix_refl _
  | cons d ds => cases h

theorem Suff.takeWhile (f : Char → Bool) : Suff (P.takeWhile f) := by
  intro s r a h
  cases h; exact List.dropWhile_suffix _

theorem Prog.takeWhile1 (f : Char → Bool) : Prog (P.takeWhile1 f) := by
  intro s r a h
  simp only [P.takeWhile1, P.verify, P.bind_run, P.takeWhile] at h
  split at h
  · rename_i hne
    cases h
    refine ⟨List.dropWhile_suffix _, ?_⟩
    have h1 := congrArg List.length (List.takeWhile_append_dropWhile (p := f) (l := s))
    simp only [List.length_append] at h1
    have h2 : (List.takeWhile f s) ≠ [] := by simpa using hne
    have := List.length_pos_iff.2 h2
    omega
  · cases h

theorem Suff.space0 : Suff P.space0 := Suff.bind (Suff.takeWhile _) fun _ => Suff.pure _
theorem Prog.space1 : Prog P.space1 := Prog.bind_left (Prog.takeWhile1 _) fun _ => Suff.pure _

end Verif.Cpp
