/-
C63, C64: how names and values start.
-/
import Verif.Cpp.SpellingExpr

set_option autoImplicit false
set_option linter.unusedVariables false
set_option linter.unusedSimpArgs false

namespace Verif.Cpp

/-! ## How names start -/

/-- The start of a name, up to the first character that does not continue an identifier. -/
def Ast.lead : Ast .uid → List Char
  | .named d i _ => (if d then ['~'] else []) ++ i
  | .opId _ _ => "operator".toList
  | .decltype _ => "decltype".toList
  | .anonId _ => []

theorem lead_named (d : Bool) (i : Ident) (tp : Ast (.opt .tparams)) :
    (Ast.named d i tp).lead = (if d then ['~'] else []) ++ i := rfl
theorem lead_op (o : Ast .op) (tp : Ast (.opt .tparams)) : (Ast.opId o tp).lead = "operator".toList := rfl
theorem lead_decltype (v : Ast .value) : (Ast.decltype v).lead = "decltype".toList := rfl

/-- The text starts with a parenthesis or a brace. -/
def Opens (t : List Char) : Prop := ∃ c u, t = c :: u ∧ (c = '(' ∨ c = '{')

theorem tparams_opens {K : Char → Prop} {tp : Ast .tparams} {t : List Char} (h : Spells K tp t) : ∃ u, t = '<' :: u := by
  cases h with
  | tpNil => exact ⟨_, rfl⟩
  | tpList => exact ⟨_, rfl⟩
  | tpVoid => exact ⟨", void>".toList, by decide +kernel⟩

theorem anon_opens {K : Char → Prop} {a : Ast .anon} {t : List Char} (h : Spells K a t) : Opens t := by
  cases h with
  | clangLambda => exact ⟨'(', "lambda at ".toList ++ _ ++ _, by
      have : "(lambda at ".toList = '(' :: "lambda at ".toList := by decide +kernel
      rw [this]; rfl, Or.inl rfl⟩
  | anonymous => exact ⟨'(', _, rfl, Or.inl rfl⟩
  | anonymousKind => exact ⟨'(', _, rfl, Or.inl rfl⟩
  | anonymousAt => exact ⟨'(', _, rfl, Or.inl rfl⟩
  | libLambda => exact ⟨'{', "lambda".toList ++ _ ++ _ ++ _ ++ _, by
      have : "{lambda".toList = '{' :: "lambda".toList := by decide +kernel
      rw [this]; simp only [List.cons_append]; rfl, Or.inr rfl⟩
  | libUnnamed => exact ⟨'{', "unnamed type#".toList ++ _ ++ _, by
      have : "{unnamed type#".toList = '{' :: "unnamed type#".toList := by decide +kernel
      rw [this]; rfl, Or.inr rfl⟩

theorem uid_lead {K : Char → Prop} {u : Ast .uid} {t : List Char} (h : Spells K u t) :
    (u.lead ≠ [] ∧ ∃ r, t = u.lead ++ r ∧ idHead r = false) ∨ (u.lead = [] ∧ Opens t) := by
  cases h with
  | @named d i hi =>
    refine Or.inl ⟨?_, [], by simp only [lead_named, lead_op, lead_decltype, List.append_nil], rfl⟩
    obtain ⟨_, c, cs, rfl, _⟩ := hi.1
    simp only [lead_named, lead_op, lead_decltype, ne_eq, List.append_eq_nil_iff, reduceCtorEq, and_false, not_false_eq_true]
  | namedT hi hb ht =>
    obtain ⟨u, rfl⟩ := tparams_opens ht
    refine Or.inl ⟨?_, _, by simp only [lead_named, lead_op, lead_decltype, List.append_assoc]; rfl, blank_idHead hb fun _ => rfl⟩
    obtain ⟨_, c, cs, rfl, _⟩ := hi.1
    simp only [lead_named, lead_op, lead_decltype, ne_eq, List.append_eq_nil_iff, reduceCtorEq, and_false, not_false_eq_true]
  | opId ho _ =>
    refine Or.inl ⟨by simp only [lead_named, lead_op, lead_decltype]; decide +kernel, _, rfl, ?_⟩
    have := opText_idHead (r := []) ho
    rwa [List.append_nil] at this
  | opIdT ho hb ht =>
    exact Or.inl ⟨by simp only [lead_named, lead_op, lead_decltype]; decide +kernel, _, by simp only [lead_named, lead_op, lead_decltype, List.append_assoc]; rfl, opText_idHead ho⟩
  | opConv hb hne _ _ =>
    refine Or.inl ⟨by simp only [lead_op]; decide +kernel, _, by simp only [lead_op, List.append_assoc]; rfl, ?_⟩
    exact blank_idHead hb fun h => absurd h hne
  | decltype => exact Or.inl ⟨by simp only [lead_named, lead_op, lead_decltype]; decide +kernel, '(' :: _, by
      have : "decltype(".toList = "decltype".toList ++ ['('] := by decide +kernel
      simp only [this, lead_named, lead_op, lead_decltype, List.append_assoc, List.cons_append, List.nil_append]; rfl, rfl⟩
  | anonId h => exact Or.inr ⟨rfl, anon_opens h⟩

theorem lead_colon {K : Char → Prop} {u : Ast .uid} {t : List Char} (h : Spells K u t) : ∀ r, u.lead ≠ ':' :: r := by
  have hid : ∀ {d : Bool} {i : Ident}, IsName i → ∀ r, (if d then ['~'] else []) ++ i ≠ ':' :: r := by
    intro d i hi r e
    obtain ⟨_, c, cs, rfl, hc⟩ := hi.1
    cases d
    · rw [if_neg (by simp), List.nil_append] at e
      simp only [List.cons.injEq] at e
      rw [e.1] at hc; exact absurd hc (by decide)
    · rw [if_pos rfl] at e
      simp only [List.cons_append, List.cons.injEq] at e
      exact absurd e.1 (by decide)
  have hop : ∀ r, "operator".toList ≠ ':' :: r := by
    intro r e
    have : "operator".toList = 'o' :: "perator".toList := by decide +kernel
    rw [this] at e; simp only [List.cons.injEq] at e; exact absurd e.1 (by decide)
  cases h with
  | named hi => exact hid hi
  | namedT hi _ _ => exact hid hi
  | opId _ _ => exact hop
  | opIdT _ _ _ => exact hop
  | opConv _ _ _ _ => exact hop
  | decltype _ _ _ =>
    intro r e
    rw [lead_decltype] at e
    have : "decltype".toList = 'd' :: "ecltype".toList := by decide +kernel
    rw [this] at e; simp only [List.cons.injEq] at e; exact absurd e.1 (by decide)
  | anonId _ => intro r e; cases e

/-- The text before the first name. -/
def rootText (rooted : Bool) : List Char := if rooted then "::".toList else []

theorem colons_idHead (r : List Char) : idHead ("::".toList ++ r) = false := by
  have : "::".toList = ':' :: ":".toList := by decide +kernel
  rw [this]; rfl

theorem sig_idHead {K : Char → Prop} {sg : Ast .sig} {t : List Char} (h : Spells K sg t) (r : List Char) : idHead (t ++ r) = false := by
  have habi : ∀ (abi : Option Ident) (r : List Char), idHead (abiText abi ++ '(' :: r) = false := by
    intro abi r
    cases abi with
    | none => rfl
    | some i =>
      have : "[abi:".toList = '[' :: "abi:".toList := by decide +kernel
      simp only [abiText, this]; rfl
  cases h with
  | sig0 _ _ _ _ _ => simp only [List.append_assoc, List.cons_append]; exact habi _ _
  | sig _ _ _ _ _ _ _ _ _ _ _ => simp only [List.append_assoc, List.cons_append]; exact habi _ _

theorem scope_first {K : Char → Prop} {a : Ast .scope} {t : List Char} (h : Spells K a t) :
    ∃ ut rest, t = ut ++ rest ∧ Spells K a.scopeUid ut ∧ ∀ r, idHead (rest ++ r) = false := by
  cases h with
  | scope hu _ => exact ⟨_, _, rfl, hu, colons_idHead⟩
  | scopeSig hu _ hs _ hb =>
    refine ⟨_, _, by simp only [List.append_assoc]; rfl, hu, fun r => ?_⟩
    rw [List.append_assoc]; exact sig_idHead hs _

theorem id_first {K : Char → Prop} {i : Ast .idExpr} {t : List Char} (h : Spells K i t) :
    ∃ ut rest, t = rootText i.idRooted ++ (ut ++ rest) ∧ Spells K i.idUid ut ∧ idHead rest = false := by
  cases h with
  | idExpr hp hu =>
    cases hp with
    | path hl _ =>
      cases hl with
      | scopesNil => exact ⟨_, [], by simp only [List.append_nil]; rfl, hu, rfl⟩
      | scopesCons ha hl =>
        obtain ⟨ut, rest, rfl, hs, hr⟩ := scope_first ha
        exact ⟨ut, _, by simp only [List.append_assoc]; rfl, hs, hr _⟩

/-! ## How values start -/

theorem start_facts {c : Char} (h : isIdStart c = true) :
    c.isDigit = false ∧ c ≠ '+' ∧ c ≠ '-' ∧ symbolOf c = none ∧ c ≠ '&' ∧ c ≠ ':' := by
  refine ⟨?_, by rintro rfl; exact absurd h (by decide), by rintro rfl; exact absurd h (by decide), ?_,
    by rintro rfl; exact absurd h (by decide), by rintro rfl; exact absurd h (by decide)⟩
  · simp only [isIdStart, Bool.or_eq_true, beq_iff_eq] at h
    rcases h with (h | rfl) | rfl
    · simp only [Char.isAlpha, Char.isUpper, Char.isLower, Bool.or_eq_true, Bool.and_eq_true, decide_eq_true_eq, ge_iff_le,
        UInt32.le_iff_toNat_le] at h
      simp only [Char.isDigit, Bool.and_eq_false_iff, decide_eq_false_iff_not, ge_iff_le, UInt32.le_iff_toNat_le]
      rcases h with ⟨h, -⟩ | ⟨h, -⟩
      · right; intro h'
        have : (65 : UInt32).toNat ≤ (57 : UInt32).toNat := le_trans h h'
        exact absurd this (by decide)
      · right; intro h'
        have : (97 : UInt32).toNat ≤ (57 : UInt32).toNat := le_trans h h'
        exact absurd this (by decide)
    · decide
    · decide
  · cases e : symbolOf c with
    | none => rfl
    | some y => rw [symbolOf_some e] at h; cases y <;> exact absurd h (by decide)

theorem digit_symbol {c : Char} (h : c.isDigit = true) : symbolOf c = none ∧ c ≠ '&' ∧ c ≠ ':' := by
  refine ⟨?_, by rintro rfl; exact absurd h (by decide), by rintro rfl; exact absurd h (by decide)⟩
  cases e : symbolOf c with
  | none => rfl
  | some y => rw [symbolOf_some e] at h; cases y <;> exact absurd h (by decide)

/-- How a literal starts. -/
theorem lit_head {K : Char → Prop} {l : Literal} {t : List Char} (h : LitText K l t) :
    ∃ c u, t = c :: u ∧ (l.isNum = false → c.isDigit = false ∧ c ≠ '+' ∧ c ≠ '-') ∧
      (l.negative = false → symbolOf c = none) ∧ c ≠ '&' ∧ c ≠ ':' := by
  induction h with
  | pos n us hn hu =>
    obtain ⟨c, u, e, hc⟩ := digits_head n us
    exact ⟨c, u, e, fun e => (nomatch e), fun _ => (digit_symbol hc).1, (digit_symbol hc).2⟩
  | neg n us h0 hn hu =>
    refine ⟨'-', _, rfl, fun e => (nomatch e), fun e => ?_, by decide, by decide⟩
    have : decide ((-(n : Int)) < 0) = false := e
    simp only [decide_eq_false_iff_not] at this
    omega
  | large n us hn hn' hu =>
    obtain ⟨c, u, e, hc⟩ := digits_head n us
    exact ⟨c, u, e, fun e => (nomatch e), fun _ => (digit_symbol hc).1, (digit_symbol hc).2⟩
  | chr pre c t hp _ hc =>
    have e1 : "u8".toList = 'u' :: "8".toList := by decide +kernel
    have e2 : "u".toList = ['u'] := by decide +kernel
    have e3 : "U".toList = ['U'] := by decide +kernel
    have e4 : "L".toList = ['L'] := by decide +kernel
    simp only [List.mem_cons, List.not_mem_nil, or_false] at hp
    rcases hp with rfl | rfl | rfl | rfl | rfl
    · exact ⟨'\'', _, rfl, fun _ => by decide, fun _ => by decide, by decide, by decide⟩
    · rw [e1]; exact ⟨'u', _, rfl, fun _ => by decide, fun _ => by decide, by decide, by decide⟩
    · rw [e2]; exact ⟨'u', _, rfl, fun _ => by decide, fun _ => by decide, by decide, by decide⟩
    · rw [e3]; exact ⟨'U', _, rfl, fun _ => by decide, fun _ => by decide, by decide, by decide⟩
    · rw [e4]; exact ⟨'L', _, rfl, fun _ => by decide, fun _ => by decide, by decide, by decide⟩
  | suffix v t i h hi hl ih =>
    obtain ⟨c, u, rfl, h1, h2, h3⟩ := ih
    refine ⟨c, u ++ i, rfl, fun e => h1 ?_, fun e => h2 ?_, h3⟩
    · cases v <;> exact e
    · cases v <;> exact e

/-- How a name starts. -/
theorem uid_head {K : Char → Prop} {u : Ast .uid} {t : List Char} (h : Spells K u t) :
    ∃ c x, t = c :: x ∧ (u.tilde = true ∧ c = '~' ∨ u.tilde = false ∧ (isIdStart c = true ∨ c = '(' ∨ c = '{')) := by
  have eo : "operator".toList = 'o' :: "perator".toList := by decide +kernel
  have ed : "decltype(".toList = 'd' :: "ecltype(".toList := by decide +kernel
  have hid : ∀ {d : Bool} {i : Ident} {x : List Char} {tp : Ast (.opt .tparams)}, IsName i →
      ∃ c y, (if d then ['~'] else []) ++ (i ++ x) = c :: y ∧
        ((Ast.named d i tp).tilde = true ∧ c = '~' ∨ (Ast.named d i tp).tilde = false ∧ (isIdStart c = true ∨ c = '(' ∨ c = '{')) := by
    intro d i x tp hi
    obtain ⟨_, c, cs, rfl, hc⟩ := hi.1
    cases d
    · exact ⟨c, cs ++ x, rfl, .inr ⟨rfl, .inl hc⟩⟩
    · exact ⟨'~', _, rfl, .inl ⟨rfl, rfl⟩⟩
  cases h with
  | @named d i hi => have := hid (d := d) (x := []) (tp := .none) hi; rwa [List.append_nil] at this
  | namedT hi _ _ => simp only [List.append_assoc]; exact hid hi
  | opId _ _ => rw [eo]; exact ⟨'o', _, rfl, .inr ⟨rfl, .inl (by decide)⟩⟩
  | opIdT _ _ _ => rw [eo]; exact ⟨'o', _, by simp only [List.cons_append]; rfl, .inr ⟨rfl, .inl (by decide)⟩⟩
  | opConv _ _ _ _ => rw [eo]; exact ⟨'o', _, by simp only [List.cons_append]; rfl, .inr ⟨rfl, .inl (by decide)⟩⟩
  | decltype _ _ _ _ => rw [ed]; exact ⟨'d', _, by simp only [List.cons_append]; rfl, .inr ⟨rfl, .inl (by decide)⟩⟩
  | anonId h =>
    obtain ⟨c, x, e, hc⟩ := anon_opens h
    exact ⟨c, x, e, .inr ⟨rfl, .inr hc⟩⟩

theorem id_head {K : Char → Prop} {i : Ast .idExpr} {t : List Char} (h : Spells K i t) :
    ∃ c x, t = c :: x ∧ (i.idRooted = true ∧ c = ':' ∨
      i.idRooted = false ∧ (i.idUid.tilde = true ∧ c = '~' ∨ i.idUid.tilde = false ∧ (isIdStart c = true ∨ c = '(' ∨ c = '{'))) := by
  have ec : "::".toList = ':' :: ":".toList := by decide +kernel
  obtain ⟨ut, rest, rfl, hu, -⟩ := id_first h
  cases hr : i.idRooted with
  | true => rw [rootText, if_pos rfl, ec]; exact ⟨':', _, rfl, .inl ⟨rfl, rfl⟩⟩
  | false =>
    rw [rootText, if_neg (by simp)]
    obtain ⟨c, x, rfl, hc⟩ := uid_head hu
    exact ⟨c, x ++ rest, rfl, .inr ⟨rfl, hc⟩⟩

/-- How a value starts. -/
theorem value_head {K : Char → Prop} {v : Ast .value} {t : List Char} (h : Spells K v t) :
    ∃ c u, t = c :: u ∧ (v.signed = false → c.isDigit = false ∧ c ≠ '+' ∧ c ≠ '-') ∧
      (v.symHead = false → symbolOf c = none) ∧ (v.ampHead = false → c ≠ '&' ∧ c ≠ ':') := by
  cases h with
  | @value hd t l tl hh _ _ _ =>
    have hp : ∀ {c : Char} {u : List Char}, (c = '(' ∨ c = '{' ∨ isIdStart c = true) →
        ∃ d y, c :: u = d :: y ∧ ((Ast.value hd l).signed = false → d.isDigit = false ∧ d ≠ '+' ∧ d ≠ '-') ∧
          ((Ast.value hd l).symHead = false → symbolOf d = none) ∧ ((Ast.value hd l).ampHead = false → d ≠ '&' ∧ d ≠ ':') := by
      intro c u hc
      refine ⟨c, u, rfl, ?_⟩
      rcases hc with rfl | rfl | hc
      · exact ⟨fun _ => by decide, fun _ => by decide, fun _ => by decide⟩
      · exact ⟨fun _ => by decide, fun _ => by decide, fun _ => by decide⟩
      · obtain ⟨h1, h2, h3, h4, h5⟩ := start_facts hc
        exact ⟨fun _ => ⟨h1, h2, h3⟩, fun _ => h4, fun _ => h5⟩
    cases hh with
    | hLit h =>
      obtain ⟨c, u, rfl, h1, h2, h3⟩ := lit_head h
      exact ⟨c, u ++ tl, rfl, h1, h2, fun _ => h3⟩
    | hCast => simp only [List.append_assoc, List.cons_append]; exact hp (.inl rfl)
    | hUnary hy _ _ _ =>
      simp only [List.mem_cons, List.not_mem_nil, or_false] at hy
      rcases hy with rfl | rfl | rfl | rfl | rfl
      all_goals exact ⟨_, _, rfl, fun e => by first | decide | exact (nomatch e), fun e => (nomatch e),
        fun e => by first | decide | exact (nomatch e)⟩
    | hIncDec hy _ _ =>
      simp only [List.mem_cons, List.not_mem_nil, or_false] at hy
      rcases hy with rfl | rfl
      all_goals exact ⟨_, _, rfl, fun e => (nomatch e), fun e => (nomatch e), fun e => by decide⟩
    | hId h _ _ _ =>
      obtain ⟨c, x, rfl, hc⟩ := id_head h
      rcases hc with ⟨hr, rfl⟩ | ⟨hr, ⟨ht, rfl⟩ | ⟨ht, hc⟩⟩
      · refine ⟨_, _, rfl, fun _ => by decide, fun _ => by decide, fun e => ?_⟩
        have : Ast.idRooted _ = false := e
        rw [hr] at this; cases this
      · refine ⟨_, _, rfl, fun _ => by decide, fun e => ?_, fun _ => by decide⟩
        have : (!Ast.idRooted _ && Ast.tilde (Ast.idUid _)) = false := e
        rw [hr, ht] at this; cases this
      · exact hp (by tauto)
    | hParen => simp only [List.append_assoc, List.cons_append]; exact hp (.inl rfl)
    | hEllipsis =>
      have : "...".toList = ['.', '.', '.'] := by decide +kernel
      rw [this]; exact ⟨'.', _, rfl, fun _ => by decide, fun _ => by decide, fun _ => by decide⟩
    | hSizeOf =>
      have : "sizeof(".toList = 's' :: "izeof(".toList := by decide +kernel
      rw [this]; exact hp (.inr (.inr (by decide)))
    | hDeclVal =>
      have : "declval(".toList = 'd' :: "eclval(".toList := by decide +kernel
      rw [this]; exact hp (.inr (.inr (by decide)))

theorem value_sign {K : Char → Prop} {v : Ast .value} {t : List Char} (h : Spells K v t) (hs : v.signed = false) :
    ∀ c u, t = c :: u → c.isDigit = false ∧ c ≠ '+' ∧ c ≠ '-' := by
  obtain ⟨c, u, rfl, h1, -⟩ := value_head h
  intro d x e
  simp only [List.cons.injEq] at e
  rw [← e.1]; exact h1 hs

theorem value_sym {K : Char → Prop} {v : Ast .value} {t : List Char} (h : Spells K v t) (hs : v.symHead = false) :
    ∀ c u, t = c :: u → symbolOf c = none := by
  obtain ⟨c, u, rfl, -, h1, -⟩ := value_head h
  intro d x e
  simp only [List.cons.injEq] at e
  rw [← e.1]; exact h1 hs

theorem value_amp {K : Char → Prop} {v : Ast .value} {t : List Char} (h : Spells K v t) (hs : v.ampHead = false) :
    ∀ c u, t = c :: u → c ≠ '&' ∧ c ≠ ':' := by
  obtain ⟨c, u, rfl, -, -, h1⟩ := value_head h
  intro d x e
  simp only [List.cons.injEq] at e
  rw [← e.1]; exact h1 hs

end Verif.Cpp
