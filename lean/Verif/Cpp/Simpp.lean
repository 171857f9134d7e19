/-
C84: the simpp command (simpp/src/main.rs): which text it reads, when it prints, and what.
-/
import Verif.Cpp.DisplayMain
import Verif.Cpp.EntityProps

set_option autoImplicit false
set_option linter.unusedVariables false
set_option linter.unusedSimpArgs false

namespace Verif.Cpp.Simpp

open Verif.Display

/-! ## Model -/

/-- How a run ends: a panic (status 101, nothing on standard output), or one line on standard output and status 0. -/
inductive Run where
  | panic
  | line (t : Text)
  deriving DecidableEq

/-- The text to read (simpp/src/main.rs 25-40): `cli` is the optional argument, `tty` whether standard input is a
terminal, `stdin` what `read_to_string` makes of it (`none`: an error or bytes that are not UTF-8). The outer `none` is
a panic (36 or 40). -/
def source (cli : Option (List Char)) (tty : Bool) (stdin : Option (List Char)) : Option (List Char) :=
  match cli with
  | some t => some t
  | none => if tty then none else stdin

/-- `main` (simpp/src/main.rs 21-51). `cols` is the value of `--cols`. Not modelled: the command line parser. -/
def simpp (M : Metrics) (cli : Option (List Char)) (tty : Bool) (stdin : Option (List Char)) (cols : Nat) : Run :=
  match source cli tty stdin with
  | none => .panic
  | some t =>
    match parseEntity t with
    | .ok _ e =>
      match boundedDisplay M (fun r => clusters (Entity.display e r)) (Entity.depth e) cols with
      | some out => .line out
      | none => .panic
    | _ => .panic

/-! ## Specification -/

/-- The text that a user means: the argument if there is one, otherwise what is piped in. -/
inductive Given (cli : Option (List Char)) (tty : Bool) (stdin : Option (List Char)) : List Char → Prop
  | argument {t : List Char} : cli = some t → Given cli tty stdin t
  | piped {t : List Char} : cli = none → tty = false → stdin = some t → Given cli tty stdin t

/-! ## Theorems -/

theorem source_given (cli : Option (List Char)) (tty : Bool) (stdin : Option (List Char)) (t : List Char) :
    source cli tty stdin = some t ↔ Given cli tty stdin t := by
  unfold source
  constructor
  · intro h
    cases cli with
    | some u => cases h; exact .argument rfl
    | none =>
      cases tty with
      | true => cases h
      | false => exact .piped rfl rfl h
  · intro h
    cases h with
    | argument h => rw [h]
    | piped h1 h2 h3 => rw [h1, h2]; exact h3

/-- **C84 (when, and what).** simpp prints exactly if it is given a text (the argument wins over standard input), at
least one column, and the whole text is a C++ entity. What it prints fits, and is the display of that entity at the
largest recursion limit such that it and all lower ones fit, or a lone ellipsis if none does. -/
theorem c84_prints (M : Metrics) (cli : Option (List Char)) (tty : Bool) (stdin : Option (List Char)) (cols : Nat) :
    (∀ out, simpp M cli tty stdin cols = .line out ↔
      ∃ t e, Given cli tty stdin t ∧ 1 ≤ cols ∧ parseEntity t = .ok [] e ∧
        ((out = [ellipsis] ∧ cols < M.width (clusters (Entity.display e 0))) ∨
        ∃ r ≤ Entity.depth e, out = clusters (Entity.display e r) ∧
          (∀ i ≤ r, M.width (clusters (Entity.display e i)) ≤ cols) ∧
          (r < Entity.depth e → cols < M.width (clusters (Entity.display e (r + 1)))))) ∧
    ∀ out, simpp M cli tty stdin cols = .line out → M.width out ≤ cols := by
  have key : ∀ e : Entity, ∀ out, 1 ≤ cols →
      (boundedDisplay M (fun r => clusters (Entity.display e r)) (Entity.depth e) cols = some out ↔
      ((out = [ellipsis] ∧ cols < M.width (clusters (Entity.display e 0))) ∨
        ∃ r ≤ Entity.depth e, out = clusters (Entity.display e r) ∧
          (∀ i ≤ r, M.width (clusters (Entity.display e i)) ≤ cols) ∧
          (r < Entity.depth e → cols < M.width (clusters (Entity.display e (r + 1)))))) := by
    intro e out h
    obtain ⟨o, h1, h2, h3, h4⟩ := boundedDisplay_spec M (fun r => clusters (Entity.display e r)) (Entity.depth e) cols h
    constructor
    · intro h'
      rw [h1] at h'
      cases h'
      exact h3
    · intro h'
      rw [h1]
      congr 1
      rcases h3 with ⟨rfl, a⟩ | ⟨r, a1, rfl, a3, a4⟩
      · rcases h' with ⟨rfl, b⟩ | ⟨r', b1, rfl, b3, b4⟩
        · rfl
        · exact absurd (b3 0 (Nat.zero_le _)) (by omega)
      · rcases h' with ⟨rfl, b⟩ | ⟨r', b1, rfl, b3, b4⟩
        · exact absurd (a3 0 (Nat.zero_le _)) (by omega)
        · have h5 : ¬ r < r' := fun hl => absurd (b3 (r + 1) hl) (by have := a4 (by omega); omega)
          have h6 : ¬ r' < r := fun hl => absurd (a3 (r' + 1) hl) (by have := b4 (by omega); omega)
          have : r = r' := by omega
          rw [this]
  constructor
  · intro out
    constructor
    · intro h
      unfold simpp at h
      split at h
      · cases h
      · rename_i t ht
        split at h
        · rename_i r e he
          obtain ⟨rfl, -⟩ := (c49_entity t).2 _ _ he
          split at h
          · rename_i o ho
            cases h
            have hc : 1 ≤ cols := by
              by_contra hc
              rw [boundedDisplay, if_pos (by omega)] at ho
              cases ho
            exact ⟨t, e, (source_given _ _ _ _).1 ht, hc, he, (key e _ hc).1 ho⟩
          · cases h
        · cases h
    · rintro ⟨t, e, hg, hc, he, hd⟩
      have h1 := (source_given _ _ _ _).2 hg
      have h2 := (key e out hc).2 hd
      rw [simpp, h1]
      simp only [he, h2]
  · intro out h
    unfold simpp at h
    split at h
    · cases h
    · split at h
      · rename_i e he
        split at h
        · rename_i o ho
          cases h
          by_cases hc : 1 ≤ cols
          · obtain ⟨o', h1, h2, -⟩ :=
              boundedDisplay_spec M (fun r => clusters (Entity.display e r)) (Entity.depth e) cols hc
            rw [ho] at h1
            cases h1
            exact h2
          · rw [boundedDisplay, if_pos (by omega)] at ho
            cases ho
        · cases h
      · cases h

/-- A spelling of an entity may be followed by blanks, unless it ends with an operator. -/
theorem reads_blank {K : Char → Prop} {a : Ast .ty} {t sp : List Char} (h : Spells K a t) (hs : Blank sp)
    (ho : a.tyOp = false) : parseEntity (t ++ sp) = .ok [] (some a) := by
  have hg : TyGood a t := spells_good h
  have hstop : Stop [] := ⟨fun c r e => (nomatch e), NoEq.nil⟩
  have := hg.run sp [] hs hstop fun h' => (by rw [ho] at h'; cases h')
  simp only [List.append_nil] at this
  rw [parseEntity]
  exact bind_step (or_l (bind_step this rfl)) rfl

theorem declop_width (t : List Char) : (clusters t).flatten = t := by
  unfold clusters
  induction t with
  | nil => rfl
  | cons c t ih => simp [ih]

/-- **C84 (ordinary names).** Every spelling of an entity, followed by any blanks (such as the line feed that `echo`
adds) if it does not end with an operator, is printed, in at most the given columns. If all of its displays fit, then
what is printed spells the same entity, and simpp prints the same again when it reads its own output, with the line
feed. -/
theorem c84_ordinary (M : Metrics) {a : Ast .ty} {t sp : List Char} (h : Spells PlainChar a t) (hs : Blank sp)
    (ho : a.tyOp = true → sp = []) (cols : Nat) (hc : 1 ≤ cols) :
    ∃ out, simpp M none false (some (t ++ sp)) cols = .line out ∧ simpp M (some (t ++ sp)) true none cols = .line out ∧
      M.width out ≤ cols ∧
      (Regular a → (∀ i, M.width (clusters (Entity.display (some a) i)) ≤ cols) →
        parseEntity out.flatten = .ok [] (some a) ∧
        ∀ b, Blank b → (a.tyOp = true → b = []) → simpp M none false (some (out.flatten ++ b)) cols = .line out) := by
  have read : ∀ {t sp : List Char}, Spells PlainChar a t → Blank sp → (a.tyOp = true → sp = []) →
      parseEntity (t ++ sp) = .ok [] (some a) := by
    intro t sp h hs ho
    cases hop : a.tyOp with
    | true => rw [ho hop, List.append_nil]; exact c63_reads h
    | false => exact reads_blank h hs hop
  have hr := read h hs ho
  obtain ⟨out, h1, h2, h3, h4⟩ :=
    boundedDisplay_spec M (fun r => clusters (Entity.display (some a) r)) (Entity.depth (some a)) cols hc
  refine ⟨out, ?_, ?_, h2, ?_⟩
  · simp only [simpp, source, Bool.false_eq_true, if_false, hr, h1]
  · simp only [simpp, source, hr, h1]
  · intro hreg hw
    have hout : out = clusters (shown a) := by
      rw [h4 fun i _ => hw i, ← display_shown a (depth a + 1) (by omega)]
      rw [advertised_depth_suffices (some a) (fun t e => by cases e; exact hreg) _ (depth a + 1) (Nat.le_refl _)
        (Nat.le_succ _)]
    have hsp := spells_shown h
    rw [hout, declop_width]
    refine ⟨c63_reads hsp, fun b hb hob => ?_⟩
    have := read hsp hb hob
    rw [← hout]
    simp only [simpp, source, Bool.false_eq_true, if_false, this, h1]

/-- **C84 (`<unknown>`).** This entity is read only without anything after it, not even the line feed that `echo`
adds; it is printed in full on nine columns or more, and as an ellipsis on fewer. -/
theorem c84_unknown (M : Metrics) (cols : Nat) :
    (∀ x, x ≠ [] → simpp M none false (some ("<unknown>".toList ++ x)) cols = .panic) ∧
    (9 ≤ cols → simpp M none false (some "<unknown>".toList) cols = .line (lit "<unknown>")) ∧
    (1 ≤ cols → cols < 9 → simpp M none false (some "<unknown>".toList) cols = .line [ellipsis]) := by
  have e1 : "<unknown>".toList = '<' :: "unknown>".toList := by decide +kernel
  have hty : ∀ x, typeLike ("<unknown>".toList ++ x) = .err := by
    intro x
    apply typeLike_bad
    rw [e1]
    exact badHead_cons (by decide) (by decide) (by decide)
  have tag0 : ∀ x, P.tag "<unknown>" ("<unknown>".toList ++ x) = .ok x () := by
    intro x
    have e3 : "<unknown>".toList = ['<', 'u', 'n', 'k', 'n', 'o', 'w', 'n', '>'] := by decide +kernel
    rw [P.tag, e3]
    simp [P.tagL]
  have hp : ∀ x, parseEntity ("<unknown>".toList ++ x) = if x = [] then .ok [] none else .err := by
    intro x
    rw [parseEntity]
    by_cases hx : x = []
    · subst hx
      rw [if_pos rfl]
      refine bind_step (a := none) (r := []) ?_ rfl
      rw [or_r (bind_err (hty []))]
      exact bind_step (a := ()) (r := []) (tag0 []) rfl
    · rw [if_neg hx]
      refine bind_step (a := none) (r := x) ?_ ?_
      · rw [or_r (bind_err (hty x))]
        exact bind_step (a := ()) (r := x) (tag0 x) rfl
      · cases x with
        | nil => exact absurd rfl hx
        | cons c x => rfl
  have hu : parseEntity "<unknown>".toList = .ok [] none := by
    have := hp []
    rwa [List.append_nil, if_pos rfl] at this
  have hd : ∀ r, Entity.display none r = "<unknown>".toList := by
    intro r; rfl
  have hw : M.width (lit "<unknown>") = 9 := by
    have : ∀ c ∈ "<unknown>".toList, M.w [c] = 1 := by
      intro c hc
      have h2 : 0x20 ≤ c.toNat ∧ c.toNat < 0x7f := by
        have : ∀ c ∈ "<unknown>".toList, 0x20 ≤ c.toNat ∧ c.toNat < 0x7f := by decide +kernel
        exact this c hc
      exact M.ascii c h2.1 h2.2
    have e2 : lit "<unknown>" = [['<'], ['u'], ['n'], ['k'], ['n'], ['o'], ['w'], ['n'], ['>']] := by decide +kernel
    have e3 : "<unknown>".toList = ['<', 'u', 'n', 'k', 'n', 'o', 'w', 'n', '>'] := by decide +kernel
    rw [e3] at this
    rw [e2]
    simp only [Metrics.width, List.map_cons, List.map_nil, List.sum_cons, List.sum_nil]
    simp only [List.mem_cons, List.not_mem_nil, or_false, forall_eq_or_imp, forall_eq] at this
    obtain ⟨a1, a2, a3, a4, a5, a6, a7, a8, a9⟩ := this
    omega
  have hcl : clusters "<unknown>".toList = lit "<unknown>" := by decide +kernel
  refine ⟨fun x hx => ?_, fun hc => ?_, fun h1 hc => ?_⟩
  · simp only [simpp, source, Bool.false_eq_true, if_false, hp x, if_neg hx]
  · obtain ⟨out, h1, h2, h3, h4⟩ :=
      boundedDisplay_spec M (fun r => clusters (Entity.display none r)) (Entity.depth none) cols (by omega)
    have : out = lit "<unknown>" := by
      rw [h4 fun i _ => by simp only [hd, hcl, hw]; exact hc, hd, hcl]
    simp only [simpp, source, Bool.false_eq_true, if_false, hu, h1, this]
  · obtain ⟨out, g1, h2, h3, h4⟩ :=
      boundedDisplay_spec M (fun r => clusters (Entity.display none r)) (Entity.depth none) cols h1
    have : out = [ellipsis] := by
      rcases h3 with ⟨h, -⟩ | ⟨r, -, -, h, -⟩
      · exact h
      · have := h 0 (Nat.zero_le _)
        simp only [hd, hcl, hw] at this
        omega
    simp only [simpp, source, Bool.false_eq_true, if_false, hu, g1, this]

/-! ## Concrete cases -/

example : simpp .unit none false (some "std::vector< int >\n".toList) 80 = .line (lit "std::vector<int>") := by
  decide +kernel
example : simpp .unit none false (some "std::vector< int >\n".toList) 15 = .line (lit "…::vector<…>") := by
  decide +kernel
example : simpp .unit (some "int".toList) false (some "char".toList) 80 = .line (lit "int") := by decide +kernel
example : simpp .unit none false (some "int".toList) 0 = .panic := by decide +kernel
/-- The hypotheses of `c84_ordinary` are met by the member function that C63 uses as its example. -/
example : ∃ out, simpp .unit none false (some ("std::pair<char const*, 3>::f(T&&) const noexcept".toList ++ ['\n'])) 80 = .line out ∧
    parseEntity out.flatten = .ok [] (some exMember) := by
  have h : Spells PlainChar exMember "std::pair<char const*, 3>::f(T&&) const noexcept".toList := by
    have := spells_shown exMember_spells
    have e : shown exMember = "std::pair<char const*, 3>::f(T&&) const noexcept".toList := by decide +kernel
    exact e ▸ this
  obtain ⟨out, h1, -, -, h2⟩ := c84_ordinary .unit h (sp := ['\n']) (by intro c hc; simp at hc; subst hc; decide) (fun h => absurd h (by decide +kernel)) 80 (by omega)
  refine ⟨out, h1, (h2 ?_ ?_).1⟩
  · simp [exMember, exPair, exChar, Regular, Ast.isNil]
  · intro i
    have hall : ∀ i ≤ depth exMember, (Metrics.unit).width (clusters (Entity.display (some exMember) i)) ≤ 80 := by
      decide +kernel
    by_cases hi : i ≤ depth exMember
    · exact hall i hi
    · rw [display_shown _ _ (by omega)]; decide +kernel

end Verif.Cpp.Simpp
