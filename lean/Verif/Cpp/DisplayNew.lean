/-
C64: the display of `new` expressions parses back.
-/
import Verif.Cpp.DisplayMain
import Verif.Cpp.SpellingNew

set_option autoImplicit false
set_option linter.unusedVariables false
set_option linter.unusedSimpArgs false

namespace Verif.Cpp

/-- The type a `new` expression makes objects of. -/
def Ast.newType : Ast .newE → Ast .ty
  | .newE _ _ t _ => t

/-- The placement arguments. -/
def Ast.newPlacement : Ast .newE → Ast (.opt .args)
  | .newE _ p _ _ => p

theorem shown_newE (rooted : Bool) (p : Ast (.opt .args)) (a : Ast .ty) (c : Ast (.opt .args)) :
    shown (.newE rooted p a c) = (if rooted then "::".toList else []) ++ "new".toList ++ (shown p ++ [' ']) ++ shown a ++ shown c := by
  simp only [shown, txt, cat_eq, tput_eq, wtxt_eq, str_eq, List.append_assoc, List.cons_append, List.nil_append]

theorem shown_hNew (n : Ast .newE) : shown (.hNew n) = shown n := by simp only [shown, txt]

theorem shown_decltypeNew (n : Ast .newE) : shown (decltypeNew n) = "decltype(".toList ++ [] ++ shown n ++ [')'] := by
  rw [decltypeNew, shown_ty, shown_stId, shown_id, shown_path, shown_decltype, shown_value, shown_hNew, shown_nil, shown_nil, shown_nil]
  simp only [if_true, List.nil_append, List.append_nil, List.append_assoc, Bool.false_eq_true, if_false]

theorem lit_digit {l : Literal} {t : List Char} (h : LitText PlainChar l t) : ∀ {d : Char} {x : List Char}, t = d :: x →
    d.isDigit = true → ∃ d' x', l.show = d' :: x' ∧ d'.isDigit = true := by
  induction h with
  | pos n us hn hu =>
    intro d x _ _
    obtain ⟨c, u, e, hc⟩ := digits_head n []
    exact ⟨c, u, e, hc⟩
  | neg n us h0 hn hu =>
    intro d x e hd
    cases e
    exact absurd hd (by decide)
  | large n us hn hn' hu =>
    intro d x _ _
    obtain ⟨c, u, e, hc⟩ := digits_head n []
    exact ⟨c, u, e, hc⟩
  | chr pre c t hp hk hc =>
    intro d x e hd
    obtain ⟨c', u, e', h1, -⟩ := lit_head (LitText.chr pre c t hp hk hc)
    rw [e] at e'
    cases e'
    rw [(h1 rfl).1] at hd
    cases hd
  | suffix v t i h hi hl ih =>
    intro d x e hd
    obtain ⟨c', u, rfl, -⟩ := lit_head h
    simp only [List.cons_append, List.cons.injEq] at e
    obtain ⟨rfl, rfl⟩ := e
    obtain ⟨d', x', e', hd'⟩ := ih rfl hd
    refine ⟨d', x' ++ i, ?_, hd'⟩
    have : (⟨v, Option.some i⟩ : Literal).show = (⟨v, Option.none⟩ : Literal).show ++ i := by
      simp only [Literal.show, Option.getD, List.append_nil]
    rw [this, e']
    rfl

/-- Blanks are skipped the same way. -/
theorem blank_same : ∀ {b c x y : List Char} {d d' : Char}, Blank b → Blank c → P.isSpace d = false → P.isSpace d' = false →
    b ++ d :: x = c ++ d' :: y → d :: x = d' :: y
  | [], [], _, _, _, _, _, _, _, _, e => e
  | [], c :: cs, _, _, _, _, _, hc, hd, _, e => by
    simp only [List.nil_append, List.cons_append, List.cons.injEq] at e
    rw [e.1, hc c (by simp)] at hd; cases hd
  | b :: bs, [], _, _, _, _, hb, _, _, hd, e => by
    simp only [List.nil_append, List.cons_append, List.cons.injEq] at e
    rw [← e.1, hb b (by simp)] at hd; cases hd
  | b :: bs, c :: cs, _, _, _, _, hb, hc, h1, h2, e => by
    simp only [List.cons_append, List.cons.injEq] at e
    exact blank_same (fun x hx => hb x (by simp [hx])) (fun x hx => hc x (by simp [hx])) h1 h2 e.2

theorem digit_space {c : Char} (h : c.isDigit = true) : P.isSpace c = false := by
  have : ¬ c = ' ' ∧ ¬ c = '\t' ∧ ¬ c = '\n' ∧ ¬ c = '\r' := by
    refine ⟨?_, ?_, ?_, ?_⟩ <;> (rintro rfl; exact absurd h (by decide))
  simp [P.isSpace, this]

theorem value_lit {n : Literal} {tr : Ast (.list .after)} {t : List Char} (h : Spells PlainChar (.value (.hLit n) tr) t) :
    ∃ u v, LitText PlainChar n u ∧ t = u ++ v := by
  cases h with
  | value h1 h2 => cases h1 with | hLit h => exact ⟨_, _, h, rfl⟩

theorem values_lit {n : Literal} {tr : Ast (.list .after)} {l : Ast (.list .value)} {t : List Char}
    (h : Spells PlainChar (.cons (.value (.hLit n) tr) l) t) : ∃ u v, LitText PlainChar n u ∧ t = u ++ v := by
  cases h with
  | valuesOne h _ => exact value_lit h
  | valuesCons h _ _ _ _ _ =>
    obtain ⟨u, v, hu, rfl⟩ := value_lit h
    exact ⟨u, _, hu, by simp only [List.append_assoc]; rfl⟩

theorem lit_space {n : Literal} {u : List Char} (h : LitText PlainChar n u) : ∃ c x, u = c :: x ∧ P.isSpace c = false := by
  induction h with
  | pos n us hn hu =>
    obtain ⟨c, u, e, hc⟩ := digits_head n us
    exact ⟨c, u, e, digit_space hc⟩
  | neg n us h0 hn hu => exact ⟨'-', _, rfl, by decide⟩
  | large n us hn hn' hu =>
    obtain ⟨c, u, e, hc⟩ := digits_head n us
    exact ⟨c, u, e, digit_space hc⟩
  | chr pre c t hp _ hc =>
    have e1 : "u8".toList = 'u' :: "8".toList := by decide +kernel
    have e2 : "u".toList = ['u'] := by decide +kernel
    have e3 : "U".toList = ['U'] := by decide +kernel
    have e4 : "L".toList = ['L'] := by decide +kernel
    simp only [List.mem_cons, List.not_mem_nil, or_false] at hp
    rcases hp with rfl | rfl | rfl | rfl | rfl
    · exact ⟨'\'', _, rfl, by decide⟩
    · rw [e1]; exact ⟨'u', _, rfl, by decide⟩
    · rw [e2]; exact ⟨'u', _, rfl, by decide⟩
    · rw [e3]; exact ⟨'U', _, rfl, by decide⟩
    · rw [e4]; exact ⟨'L', _, rfl, by decide⟩
  | suffix v t i h hi hl ih =>
    obtain ⟨c, x, rfl, hc⟩ := ih
    exact ⟨c, _, rfl, hc⟩

/-- Initializers that start with a number are displayed so. -/
theorem args_digit {n : Literal} {tr : Ast (.list .after)} {l : Ast (.list .value)} {c u : List Char} {d : Char}
    (h : Spells PlainChar (.args (.cons (.value (.hLit n) tr) l)) ('(' :: c ++ d :: u)) (hc : Blank c) (hd : d.isDigit = true) :
    ∃ d' u', shown (.args (.cons (.value (.hLit n) tr) l)) = '(' :: [] ++ d' :: u' ∧ d'.isDigit = true := by
  have key : ∃ d' x', n.show = d' :: x' ∧ d'.isDigit = true := by
    generalize hv : '(' :: c ++ d :: u = v at h
    cases h with
    | @args _ b t b' _ _ hb ht _ =>
      obtain ⟨u1, u2, hl, rfl⟩ := values_lit ht
      obtain ⟨e, x, rfl, he⟩ := lit_space hl
      have hv' : c ++ d :: u = b ++ e :: (x ++ u2 ++ b' ++ [')']) := by
        simpa only [List.cons_append, List.cons.injEq, true_and, List.append_assoc] using hv
      have := blank_same hc hb (digit_space hd) he hv'
      simp only [List.cons.injEq] at this
      obtain ⟨rfl, -⟩ := this
      exact lit_digit hl rfl hd
  obtain ⟨d', x', e, hd'⟩ := key
  refine ⟨d', x' ++ (shown tr ++ ((if l.isNil then [] else [',', ' ']) ++ shown l) ++ [')']), ?_, hd'⟩
  rw [shown_args, shown_values, shown_value, shown_hLit, e]
  simp only [List.append_assoc, List.cons_append, List.nil_append]

theorem new_shown {n : Ast .newE} {t : List Char} (h : NewText PlainChar n t)
    (hp : n.newPlacement = .none → ∀ u, shown n.newType ≠ '(' :: u) : NewText PlainChar n (shown n) := by
  have hpl : ∀ {p : Ast (.opt .args)} {pt : List Char}, PlacementText PlainChar p pt →
      PlacementText PlainChar p (shown p ++ [' ']) := by
    intro p pt h
    cases h with
    | none _ _ => rw [shown_none]; exact .none blank_one (by simp)
    | some _ ht _ =>
      rw [shown_some]
      exact .some (b := []) blank_nil (spells_shown ht) blank_one
  cases h with
  | @plain rooted p pt a t b h1 h2 h3 h4 h5 =>
    have := NewText.plain (rooted := rooted) (b := []) (hpl h1) (spells_shown h2) h3 hp blank_nil
    rw [shown_newE, shown_none]
    exact this
  | @init rooted p pt cv ct b1 simple st b2 n tr l c d u b h1 h2 h3 h4 h5 h6 h7 h8 h9 h10 h11 h12 h13 =>
    obtain ⟨d', u', e, hd'⟩ := args_digit h10 h11 h12
    have ha : Spells PlainChar _ (shown _) := spells_shown h10
    have hsh : shown (.ty .nil cv simple .nil) = cv.show ++ (if cv = CV.none then [] else [' ']) ++ shown simple := by
      rw [shown_ty, shown_nil, List.append_nil]
      by_cases hc : cv = CV.none
      · rw [if_pos hc, if_pos hc, hc]; rfl
      · rw [if_neg hc, if_neg hc]
    have hp' : p = .none → ∀ u, shown (.ty .nil cv simple .nil) ≠ '(' :: u := hp
    have hiff : cv.show = [] ↔ (if cv = CV.none then [] else [' ']) = ([] : List Char) := by
      constructor
      · intro h; rw [if_pos (cv_show_none h)]
      · intro h
        by_cases hc : cv = CV.none
        · rw [hc]; decide
        · rw [if_neg hc] at h; cases h
    have hnp : p = .none → ∀ u, cv.show ++ shown simple ≠ '(' :: u := by
      intro h u e
      by_cases hc : cv = CV.none
      · rw [if_pos hc, List.append_nil] at hsh
        exact hp' h u (hsh.trans e)
      · cases hs : cv.show with
        | nil => exact hc (cv_show_none hs)
        | cons x y =>
          rw [hs] at e hsh
          simp only [List.cons_append, List.cons.injEq] at e hsh
          exact hp' h _ (hsh.trans (by rw [e.1]))
    have := NewText.init (rooted := rooted) (b := []) (b2 := []) (b1 := if cv = CV.none then [] else [' ']) (ct := cv.show) (hpl h1)
      (cvText_show cv) (by split; exact blank_nil; exact blank_one) hiff (spells_shown h5) h6 h7 hnp
      blank_nil (e ▸ ha) blank_nil hd' blank_nil
    rw [shown_newE, shown_some, e, hsh]
    simpa only [List.append_assoc, List.append_nil, List.nil_append, List.cons_append] using this

/-- **C64.** The display of a `new` expression, with enough budget, parses back to it, provided that a type displayed with
a parenthesis first comes after placement arguments. -/
theorem c64_new {n : Ast .newE} {t : List Char} (h : NewText PlainChar n t) (r : Nat) (hr : depth (decltypeNew n) < r)
    (hp : n.newPlacement = .none → ∀ u, shown n.newType ≠ '(' :: u) :
    parseEntity (Entity.display (some (decltypeNew n)) r) = .ok [] (some (decltypeNew n)) := by
  rw [display_shown _ r hr, shown_decltypeNew]
  exact c63_new blank_nil (new_shown h hp)

/-- **C64** on `new` expressions: `decltype( ::new (3) char const * )` is displayed as `decltype(::new(3) char const*)`, which
is read the same way. -/
example : ∃ n : Ast .newE, parseEntity "decltype( ::new (3) char const * )".toList = .ok [] (some (decltypeNew n)) ∧
    Entity.display (some (decltypeNew n)) 9 = "decltype(::new(3) char const*)".toList ∧
    parseEntity "decltype(::new(3) char const*)".toList = .ok [] (some (decltypeNew n)) := by
  have hn : NewText PlainChar (.newE true (.some (.args (.cons (.value (.hLit ⟨.i64 3, Option.none⟩) .nil) .nil))) exChar .none) _ :=
    .plain (rooted := true) (.some blank_one exArgs_spells blank_one) exChar_spells (by decide) (fun h => (nomatch h)) blank_one
  have h1 := c63_new (b := [' ']) blank_one hn
  have h2 := c64_new hn 9 (by decide) (fun h => (nomatch h))
  have e : "decltype(".toList ++ [' '] ++ ((if true = true then "::".toList else []) ++ "new".toList ++ ([' '] ++ "(3)".toList ++ [' ']) ++
      "char const *".toList ++ [' ']) ++ [')'] = "decltype( ::new (3) char const * )".toList := by decide +kernel
  rw [e] at h1
  have e2 : Entity.display (some (decltypeNew (.newE true (.some (.args (.cons (.value (.hLit ⟨.i64 3, Option.none⟩) .nil) .nil))) exChar .none))) 9 =
      "decltype(::new(3) char const*)".toList := by decide +kernel
  exact ⟨_, h1, e2, e2 ▸ h2⟩

end Verif.Cpp
