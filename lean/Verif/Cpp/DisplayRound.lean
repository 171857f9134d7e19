/-
C64: what is displayed spells the entity, hence parses back to it.
-/
import Verif.Cpp.DisplayText
import Verif.Cpp.SpellingExample

set_option autoImplicit false
set_option linter.unusedVariables false
set_option linter.unusedSimpArgs false

namespace Verif.Cpp

theorem wtxt_eq (b : Bool) (t : List Char) : wtxt b t = if b then t else [] := by rw [wtxt]

theorem wtxt_true (t : List Char) : wtxt true t = t := by rw [wtxt]; rfl
theorem wtxt_false (t : List Char) : wtxt false t = [] := by rw [wtxt]; rfl

/-- The text of an entity displayed in full. -/
abbrev shown {s : S} (a : Ast s) : List Char := txt .postfixUsage a

theorem sliceTxt_eq {s : S} (l : Ast (.list s)) (t : List Char) : sliceTxt l t = s.hdr ++ (t ++ s.trailer) := by
  rw [sliceTxt, cat_eq, cat_eq, tput_eq, tput_eq]

/-! ### Leaves -/

theorem cvText_show (cv : CV) : CvText cv cv.show := by
  obtain ⟨c, v⟩ := cv
  cases c <;> cases v
  · exact cvText_none
  · exact ⟨["volatile"], by decide, .one _, by decide⟩
  · exact cvText_const
  · refine ⟨["const", "volatile"], by decide, ?_, by decide⟩
    exact .cons "const" [' '] "volatile" [] "volatile".toList blank_one (by simp) (.one _)

theorem cv_show_none {cv : CV} (h : cv.show = []) : cv = CV.none := by
  obtain ⟨c, v⟩ := cv
  cases c <;> cases v
  · rfl
  all_goals exact absurd h (by decide +kernel)

/-- Words joined by one blank. -/
def joinWords : List String → List Char
  | [] => []
  | [w] => w.toList
  | w :: w' :: ws => w.toList ++ [' '] ++ joinWords (w' :: ws)

theorem words_join : ∀ ws : List String, Words ws (joinWords ws)
  | [] => .nil
  | [w] => .one w
  | w :: w' :: ws => .cons w [' '] w' ws _ blank_one (by simp) (words_join (w' :: ws))

theorem legacyText_show (n : LegacyName) : LegacyText n n.show.toList := by
  have : ∃ sp ∈ n.spellings, joinWords sp = n.show.toList := by cases n <;> decide +kernel
  obtain ⟨sp, hsp, e⟩ := this
  exact ⟨sp, ⟨sp, hsp, List.Perm.refl _⟩, e ▸ words_join sp⟩

theorem splitSlash_chars (p : List Char) : ∀ n ∈ Intern.splitSlash p, ∀ c ∈ n, c ∈ p := by
  induction p with
  | nil => intro n hn; simp [Intern.splitSlash] at hn; subst hn; simp
  | cons a t ih =>
    intro n hn c hc
    simp only [Intern.splitSlash] at hn
    split at hn
    · rcases List.mem_cons.1 hn with rfl | hn
      · cases hc
      · exact List.mem_cons_of_mem _ (ih n hn c hc)
    · split at hn
      · rename_i h0; exact absurd h0 (Intern.splitSlash_ne_nil t)
      · rename_i m ms hm
        rw [hm] at ih
        rcases List.mem_cons.1 hn with rfl | hn
        · rcases List.mem_cons.1 hc with rfl | hc
          · simp
          · exact List.mem_cons_of_mem _ (ih m (by simp) c hc)
        · exact List.mem_cons_of_mem _ (ih n (by simp [hn]) c hc)

theorem normalize_chars (p : List Char) : ∀ n ∈ Intern.normalize p, ∀ c ∈ n, c ∈ p := by
  unfold Intern.normalize Intern.resolveDots
  have : ∀ (ps acc : List (List Char)), (∀ n ∈ ps, ∀ c ∈ n, c ∈ p) → (∀ n ∈ acc, ∀ c ∈ n, c ∈ p) →
      ∀ n ∈ ps.foldl (fun acc n => if n = ['.', '.'] then acc.dropLast else acc ++ [n]) acc, ∀ c ∈ n, c ∈ p := by
    intro ps
    induction ps with
    | nil => intro acc _ h; exact h
    | cons m ps ih =>
      intro acc hp ha
      simp only [List.foldl_cons]
      apply ih _ (fun n hn => hp n (by simp [hn]))
      intro n hn
      split at hn
      · exact ha n (List.dropLast_subset _ hn)
      · rcases List.mem_append.1 hn with hn | hn
        · exact ha n hn
        · simp at hn; subst hn; exact hp n (by simp)
  exact this _ [] (fun n hn => splitSlash_chars p n (List.mem_filter.1 hn).1) (by simp)

theorem pathText_self {f t : List Char} (h : PathText f t) : PathText f f := by
  obtain ⟨_, hc, hne, hlen, rfl⟩ := h
  have hp := Intern.c18_normalized_names t
  have hn := Intern.c18_plain_path (Intern.normalize t) hp
  have hd := Intern.c18_display (Intern.normalize t) hp
  rw [if_neg hne] at hd
  refine ⟨?_, ?_, by rw [hn]; exact hne, by rw [hn]; exact hlen, by rw [hn]⟩
  · rw [hd]
    cases hq : Intern.normalize t with
    | nil => exact absurd hq hne
    | cons n ns => exact ⟨_, rfl⟩
  · rw [hd]
    intro hm
    obtain ⟨n, hn, hm⟩ := List.mem_flatMap.1 hm
    rcases List.mem_cons.1 hm with e | hm
    · exact absurd e (by decide)
    · exact hc (normalize_chars t n hn _ hm)

theorem locText_show {l : Loc} {t : List Char} (h : LocText l t) : LocText l l.show := by
  obtain ⟨h1, h2, p, hp, rfl⟩ := h
  refine ⟨h1, h2, l.file, pathText_self hp, ?_⟩
  have : str ":" = [':'] := by decide +kernel
  simp only [Loc.show, this, digits, List.append_assoc, List.cons_append, List.nil_append]

theorem litText_show {l : Literal} {t : List Char} (h : LitText PlainChar l t) : LitText PlainChar l l.show := by
  induction h with
  | pos n us hn _ =>
    have := LitText.pos (K := PlainChar) n [] hn (by simp)
    simp only [List.append_nil] at this
    exact (show LitText PlainChar _ (digits n ++ []) by rw [List.append_nil]; exact this)
  | neg n us h0 hn _ =>
    have := LitText.neg (K := PlainChar) n [] h0 hn (by simp)
    simp only [List.append_nil] at this
    simp only [Literal.show, Option.getD, List.append_nil]
    obtain ⟨m, rfl⟩ : ∃ m, n = m + 1 := ⟨n - 1, by omega⟩
    have e : str (toString (-((m + 1 : Nat) : Int))) = '-' :: digits (m + 1) := by
      have : (-((m + 1 : Nat) : Int)) = Int.negSucc m := rfl
      rw [this]
      show ("-" ++ Nat.repr (m + 1)).toList = _
      rw [String.toList_append]
      rfl
    rw [e]; exact this
  | large n us h0 hn _ =>
    have := LitText.large (K := PlainChar) n [] h0 hn (by simp)
    simp only [List.append_nil] at this
    exact (show LitText PlainChar _ (digits n ++ []) by rw [List.append_nil]; exact this)
  | chr pre c t hp hk hc =>
    simp only [Literal.show, Option.getD, List.append_nil]
    have key : ∃ u, CharText c u ∧ charDebug c = ['\''] ++ u ++ ['\''] := by
      by_cases h1 : c ∈ ['\t', '\r', '\n', '\'', '\\', Char.ofNat 0]
      · simp only [List.mem_cons, List.not_mem_nil, or_false] at h1
        rcases h1 with rfl | rfl | rfl | rfl | rfl | rfl
        · exact ⟨"\\t".toList, Or.inr (Or.inr (Or.inr (by simp))), by decide +kernel⟩
        · exact ⟨"\\r".toList, Or.inr (Or.inr (Or.inr (by simp))), by decide +kernel⟩
        · exact ⟨"\\n".toList, Or.inr (Or.inr (Or.inr (by simp))), by decide +kernel⟩
        · exact ⟨"\\'".toList, Or.inr (Or.inr (Or.inr (by simp))), by decide +kernel⟩
        · exact ⟨"\\\\".toList, Or.inr (Or.inr (Or.inr (by simp))), by decide +kernel⟩
        · exact ⟨"\\0".toList, Or.inr (Or.inr (Or.inr (by simp))), by decide +kernel⟩
      · simp only [List.mem_cons, List.not_mem_nil, or_false, not_or] at h1
        obtain ⟨k1, k2, k3, k4, k5, k6⟩ := h1
        refine ⟨[c], ?_, ?_⟩
        · exact Or.inl ⟨k5, rfl⟩
        · have k7 : ¬ (c.toNat < 32 ∨ c.toNat = 127) := by
            rcases hk with hk | hk
            · omega
            · simp only [List.mem_cons, List.not_mem_nil, or_false] at hk
              rcases hk with hk | hk | hk | hk
              · exact absurd hk k1
              · exact absurd hk k2
              · exact absurd hk k3
              · exact absurd hk k6
          simp only [charDebug, if_neg k1, if_neg k2, if_neg k3, if_neg k4, if_neg k5, if_neg k6, if_neg k7]
    obtain ⟨u, hu, e⟩ := key
    rw [e]
    exact .chr "" c u (by decide) hk hu
  | suffix v t i _ hi hn ih =>
    have : Literal.show ⟨v, some i⟩ = Literal.show ⟨v, none⟩ ++ i := by
      simp [Literal.show]
    rw [this]
    exact .suffix v _ i ih hi hn

theorem decl_true (x : List Char) : wtxt (decide (Ctx.declaration = Ctx.declaration)) x = x := by simp [wtxt_eq]
theorem decl_binary (x : List Char) : wtxt (decide (Ctx.declaration = Ctx.binaryUsage)) x = [] := by simp [wtxt_eq]
theorem decl_prefix (x : List Char) : wtxt (decide (Ctx.declaration = Ctx.prefixUsage)) x = [] := by simp [wtxt_eq]
theorem pre_decl (x : List Char) : wtxt (decide (Ctx.prefixUsage = Ctx.declaration)) x = [] := by simp [wtxt_eq]
theorem pre_binary (x : List Char) : wtxt (decide (Ctx.prefixUsage = Ctx.binaryUsage)) x = [] := by simp [wtxt_eq]
theorem pre_pre (x : List Char) : wtxt (decide (Ctx.prefixUsage = Ctx.prefixUsage)) x = x := by simp [wtxt_eq]

theorem w_true (x : List Char) : wtxt (decide True) x = x := by simp [wtxt_eq]

theorem opText_shown {o : Ast .op} {t : List Char} (h : OpText o t) :
    ∃ u, OpText o u ∧ txt .declaration o = "operator".toList ++ u := by
  cases h with
  | arith o ho =>
    refine ⟨o.text, .arith o ho, ?_⟩
    cases o <;>
      simp only [txt, cat_eq, tput_eq, w_true, decl_binary, List.nil_append, List.append_nil, str]
  | call => exact ⟨_, .call, by rw [txt]; simp only [cat_eq, tput_eq, w_true]; rfl⟩
  | index => exact ⟨_, .index, by rw [txt]; simp only [cat_eq, tput_eq, w_true]; rfl⟩
  | custom b b' i _ _ hi =>
    refine ⟨_, .custom [] [' '] i blank_nil blank_one hi, ?_⟩
    have : str "\"\" " = "\"\"".toList ++ [' '] := by decide +kernel
    rw [txt]
    simp only [cat_eq, tput_eq, w_true, this, List.nil_append, List.append_assoc, str]
  | newDelete b d a _ _ =>
    refine ⟨_, .newDelete [' '] d a blank_one (by simp), ?_⟩
    rw [txt]
    simp only [cat_eq, tput_eq, w_true, decl_prefix, List.append_nil, List.append_assoc, str, wtxt_eq]
    cases d <;> cases a <;> rfl
  | coAwait b _ _ =>
    refine ⟨_, .coAwait [' '] blank_one (by simp), ?_⟩
    rw [txt]
    simp only [cat_eq, tput_eq, w_true, decl_prefix, List.append_nil, List.append_assoc, str]

theorem takeWhile_no {c : Char} {u w : List Char} (h : isIdCont c = false) (hw : w ≠ []) :
    (c :: u).takeWhile isIdCont ≠ w := by
  rw [List.takeWhile_cons, if_neg (by rw [h]; simp)]
  exact hw.symm

theorem takeWhile_stop {w r : List Char} (h : idHead r = false) :
    (w ++ r).takeWhile isIdCont = w.takeWhile isIdCont := by
  induction w with
  | nil =>
    cases r with
    | nil => rfl
    | cons c cs => simp only [idHead] at h; simp [h]
  | cons c cs ih => simp only [List.cons_append, List.takeWhile_cons, ih]

theorem no_word {w r r' p : List Char} (hp : ∀ c ∈ p, isIdCont c = true) (hr : idHead r' = false)
    (h : ∀ x, w ++ r ≠ p ++ x) : ∀ x, w ++ r' ≠ p ++ x := by
  intro x e
  rcases List.append_eq_append_iff.1 e with ⟨a, h1, h2⟩ | ⟨c, h1, h2⟩
  · cases a with
    | nil => rw [List.append_nil] at h1; exact h r (by rw [h1])
    | cons d a =>
      rw [h2] at hr
      have : isIdCont d = true := hp d (by rw [h1]; simp)
      simp only [List.cons_append, idHead] at hr
      rw [hr] at this; cases this
  · exact h (c ++ r) (by rw [h1, List.append_assoc])

theorem newWord : ∀ c ∈ "new".toList, isIdCont c = true := by decide +kernel
theorem colonsNew : "::new".toList = "::".toList ++ "new".toList := by decide +kernel
theorem colons_cons : "::".toList = [':', ':'] := by decide +kernel
theorem new_cons : "new".toList = 'n' :: "ew".toList := by decide +kernel

theorem valueName_word {rooted : Bool} {w r r' : List Char} (hw : w ≠ []) (hc : ∀ u, w ≠ ':' :: u)
    (hr : idHead r = false) (hr' : idHead r' = false) (h : ValueName (rootText rooted ++ (w ++ r))) :
    ValueName (rootText rooted ++ (w ++ r')) := by
  obtain ⟨h1, h2, h3, h4⟩ := h
  cases rooted with
  | false =>
    simp only [rootText, if_neg Bool.false_ne_true, List.nil_append] at h1 h2 h3 h4 ⊢
    rw [takeWhile_stop hr] at h3 h4
    refine ⟨no_word newWord hr' h1, ?_, by rw [takeWhile_stop hr']; exact h3, by rw [takeWhile_stop hr']; exact h4⟩
    intro x e
    cases w with
    | nil => exact hw rfl
    | cons c w =>
      rw [colonsNew, colons_cons] at e
      simp only [List.cons_append, List.cons.injEq] at e
      exact hc w (by rw [e.1])
  | true =>
    have e0 : rootText true = "::".toList := rfl
    rw [e0] at h1 h2 h3 h4 ⊢
    refine ⟨?_, ?_, ?_, ?_⟩
    · intro x e
      rw [colons_cons, new_cons] at e
      simp only [List.cons_append, List.cons.injEq] at e
      exact absurd e.1 (by decide)
    · rw [colonsNew] at h2 ⊢
      have := no_word (w := w) (r := r) (r' := r') newWord hr' fun x e => h2 x (by rw [e, List.append_assoc])
      intro x e
      rw [List.append_assoc] at e
      exact this x (List.append_cancel_left e)
    · rw [colons_cons]; exact takeWhile_no (by decide) (by decide +kernel)
    · rw [colons_cons]; exact takeWhile_no (by decide) (by decide +kernel)

theorem valueName_opens {rooted : Bool} {t : List Char} (h : Opens t) : ValueName (rootText rooted ++ t) := by
  obtain ⟨c, u, rfl, hc⟩ := h
  cases rooted with
  | false =>
    simp only [rootText, if_neg Bool.false_ne_true, List.nil_append]
    rcases hc with rfl | rfl <;> refine ⟨?_, ?_, ?_, ?_⟩
    all_goals first
      | (intro x e; rw [new_cons] at e; simp only [List.cons_append, List.cons.injEq] at e; exact absurd e.1 (by decide))
      | (intro x e; rw [colonsNew, colons_cons] at e; simp only [List.cons_append, List.cons.injEq] at e
         exact absurd e.1 (by decide))
      | (exact takeWhile_no (by decide) (by decide +kernel))
  | true =>
    have e0 : rootText true = "::".toList := rfl
    rw [e0]
    refine ⟨?_, ?_, ?_, ?_⟩
    · intro x e
      rw [colons_cons, new_cons] at e
      simp only [List.cons_append, List.cons.injEq] at e
      exact absurd e.1 (by decide)
    · intro x e
      rw [colonsNew, List.append_assoc] at e
      have := List.append_cancel_left e
      rw [new_cons] at this
      simp only [List.cons_append, List.cons.injEq] at this
      rcases hc with rfl | rfl <;> exact absurd this.1 (by decide)
    · rw [colons_cons]; exact takeWhile_no (by decide) (by decide +kernel)
    · rw [colons_cons]; exact takeWhile_no (by decide) (by decide +kernel)

/-- Whether a name may start a value does not depend on how it is spelled. -/
theorem valueName_any {K : Char → Prop} {i : Ast .idExpr} {t t' : List Char} (h : Spells K i t) (h' : Spells K i t') (hv : ValueName t) :
    ValueName t' := by
  obtain ⟨ut, rest, rfl, hu, hr⟩ := id_first h
  obtain ⟨ut', rest', rfl, hu', hr'⟩ := id_first h'
  rcases uid_lead hu' with ⟨hne, r', rfl, hr2'⟩ | ⟨hnil, c, u, rfl, hc⟩
  · rcases uid_lead hu with ⟨_, r, rfl, hr2⟩ | ⟨hnil, _⟩
    · rw [List.append_assoc] at hv ⊢
      have hd : ∀ {r rest : List Char}, idHead r = false → idHead rest = false → idHead (r ++ rest) = false := by
        intro r rest h1 h2
        cases r with
        | nil => exact h2
        | cons c r => exact h1
      exact valueName_word hne (lead_colon hu) (hd hr2 hr) (hd hr2' hr') hv
    · exact absurd hnil hne
  · exact valueName_opens ⟨c, u ++ rest', rfl, hc⟩

end Verif.Cpp
