/-
C64: what is displayed in full parses back to the same entity.
-/
import Verif.Cpp.DisplayRound

set_option autoImplicit false
set_option linter.unusedVariables false
set_option linter.unusedSimpArgs false

namespace Verif.Cpp

/-- Operators are displayed after blanks that are not part of their spelling. -/
def RTdecls (l : Ast (.list .declop)) : Prop :=
  ∃ b u, shown l = b ++ u ∧ Blank b ∧ Spells PlainChar l u ∧ (idHead u = true → b ≠ []) ∧ (l = .nil → b = []) ∧
    (l.first = some .fn → b = [])

def RTdecl (d : Ast .declop) : Prop :=
  ∃ b u, shown d = b ++ u ∧ Blank b ∧ Spells PlainChar d u ∧ (idHead u = true → b ≠ []) ∧ (d.kind = .fn → b = []) ∧ u ≠ []

/-- Trailing return types are displayed after an arrow. -/
def RTtrail (tr : Ast (.opt .ty)) : Prop :=
  Spells PlainChar tr (if tr.isNone then [] else " -> ".toList ++ shown tr)

/-- The display of an entity spells it. -/
def RT : {s : S} → Ast s → Prop
  | .list .declop => RTdecls
  | .opt .ty => RTtrail
  | .declop => RTdecl
  | _ => fun a => Spells PlainChar a (shown a)

theorem cv_ne_decide {cv : CV} (t : List Char) : wtxt (decide (cv ≠ CV.none)) t = if cv = CV.none then [] else t := by
  rw [wtxt_eq]
  by_cases h : cv = CV.none
  · simp [h]
  · simp [h]

theorem str_eq (s : String) : str s = s.toList := rfl

theorem comma_cons : ", ".toList = [',', ' '] := by decide +kernel

attribute [local irreducible] txt

/-- The qualifiers of a pointer, as displayed. -/
def ptrShow (cv : CV) (r : Bool) : List Char :=
  (if cv = CV.none then [] else [' '] ++ cv.show) ++ (if r then " restrict".toList else [])

theorem ptrQuals_shown {cv : CV} {r : Bool} {q : List Char} (h : PtrQuals cv r q) :
    PtrQuals cv r (ptrShow cv r) := by
  unfold ptrShow
  have e : " restrict".toList = [' '] ++ "restrict".toList := by decide +kernel
  cases h with
  | none => rw [if_pos rfl, if_neg (by simp), List.nil_append]; exact .none
  | cv cv b t hne _ _ =>
    rw [if_neg hne, if_neg (by simp), List.append_nil]
    exact .cv cv [' '] cv.show hne blank_one (cvText_show cv)
  | restrict b w _ hw =>
    rw [if_pos rfl, if_pos rfl, List.nil_append, e]
    exact .restrict [' '] "restrict" blank_one (by decide)
  | cvRestrict cv b t b' w hne _ _ _ _ _ =>
    rw [if_neg hne, if_pos rfl, e, ← List.append_assoc]
    exact .cvRestrict cv [' '] cv.show [' '] "restrict" hne blank_one (cvText_show cv) blank_one (by simp) (by decide)

theorem sigQuals_shown (cv : CV) (ref : Ref) :
    SigQuals cv ref ((if cv = CV.none then [] else [' '] ++ cv.show) ++
      (if ref = Ref.none then [] else [' '] ++ ref.show)) := by
  refine ⟨if cv = CV.none then [] else [' '], cv.show, if ref = Ref.none then [] else [' '],
    cvText_show cv, ?_, ?_, ?_, ?_, ?_⟩
  · split; exact blank_nil; exact blank_one
  · split; exact blank_nil; exact blank_one
  · intro h; rw [if_pos (cv_show_none h)]
  · intro h; rw [if_pos h]
  · have e1 : (if cv = CV.none then [] else [' '] ++ cv.show) = (if cv = CV.none then [] else [' ']) ++ cv.show := by
      split
      · rename_i h; rw [h]; decide
      · rfl
    have e2 : (if ref = Ref.none then [] else [' '] ++ ref.show) = (if ref = Ref.none then [] else [' ']) ++ ref.show := by
      cases ref <;> decide +kernel
    rw [e1, e2]
    simp only [List.append_assoc]

theorem shown_none {s : S} : shown (.none : Ast (.opt s)) = [] := by simp only [shown, txt]
theorem shown_some {s : S} (a : Ast s) : shown (Ast.some a) = shown a := by simp only [shown, txt]
theorem shown_nil {s : S} : shown (.nil : Ast (.list s)) = [] := by simp only [shown, txt]

theorem shown_sig {abi : Option Ident} {l : Ast (.list .ty)} {variadic : Bool} {cv : CV} {ref : Ref} {nx : Ast .noexc}
    {tr : Ast (.opt .ty)} :
    shown (.sig abi l variadic cv ref nx tr) =
      abiText abi ++ '(' :: shown l ++ (if variadic then ", ...".toList else []) ++
        ')' :: (((if cv = CV.none then [] else [' '] ++ cv.show) ++
      (if ref = Ref.none then [] else [' '] ++ ref.show)) ++ (shown nx ++ (if tr.isNone then [] else " -> ".toList ++ shown tr))) := by
  have h1 : S.ty.hdr = ['('] := by decide +kernel
  have h2 : S.ty.trailer = [] := rfl
  have h3 : wtxt (decide (ref ≠ Ref.none)) ([' '] ++ ref.show) = if ref = Ref.none then [] else [' '] ++ ref.show := by
    rw [wtxt_eq]; cases ref <;> rfl
  cases abi <;> (simp only [shown, txt, cat_eq, tput_eq, sliceTxt_eq, h1, h2, h3, cv_ne_decide]
                 rw [wtxt_eq]
                 simp only [abiText, tput_eq, List.append_assoc, List.nil_append, List.cons_append, List.append_nil])

theorem shown_nxNone : shown .nxNone = [] := by simp only [shown, txt]
theorem shown_nxPlain : shown (.nxSome .none) = [' '] ++ "noexcept".toList := by
  have e : str " noexcept" = [' '] ++ "noexcept".toList := by decide +kernel
  simp only [shown, txt, cat_eq, tput_eq, Ast.isNone, if_true, e, List.append_nil]
theorem shown_nxArg (v : Ast .value) :
    shown (.nxSome (.some v)) = [' '] ++ ("noexcept(".toList ++ (shown v ++ [')'])) := by
  have e : str " noexcept" = [' '] ++ "noexcept".toList := by decide +kernel
  have e' : "noexcept(".toList = "noexcept".toList ++ ['('] := by decide +kernel
  simp only [shown, txt, cat_eq, tput_eq, Ast.isNone, Bool.false_eq_true, if_false, e, e', List.append_assoc]

theorem shown_args (l : Ast (.list .value)) : shown (.args l) = '(' :: (shown l ++ [')']) := by
  have h1 : S.value.hdr = ['('] := by decide +kernel
  have h2 : S.value.trailer = [')'] := by decide +kernel
  simp only [shown, txt, sliceTxt_eq, h1, h2]; rfl
theorem shown_values (a : Ast .value) (l : Ast (.list .value)) :
    shown (.cons a l) = shown a ++ ((if l.isNil then [] else [',', ' ']) ++ shown l) := by
  have h1 : S.value.sep = [',', ' '] := by decide +kernel
  simp only [shown, txt, cat_eq, tput_eq, h1, wtxt_eq]
  cases l.isNil <;> rfl

theorem shown_tyAttr {l : Ast (.list .value)} (hl : l.isNil = false) (cv : CV) (simple : Ast .simple)
    (decl : Ast (.list .declop)) : shown (.ty l cv simple decl) =
      "__attribute__(".toList ++ (shown (.args l) ++ ([')', ' '] ++ shown (.ty .nil cv simple decl))) := by
  have e : str ") " = [')', ' '] := by decide +kernel
  simp only [shown, txt, cat_eq, tput_eq, hl, Bool.false_eq_true, if_false, e, List.append_assoc]
  rw [show (Ast.nil : Ast (.list .value)).isNil = true from rfl, if_pos rfl, List.nil_append]

theorem shown_conv (a : Ast .ty) : txt .declaration (.conversion a) = "operator".toList ++ ([' '] ++ shown a) := by
  simp only [shown, txt, cat_eq, tput_eq, w_true, decl_prefix, List.nil_append, List.append_nil, str_eq]

theorem shown_ty (cv : CV) (simple : Ast .simple) (decl : Ast (.list .declop)) :
    shown (.ty .nil cv simple decl) = (if cv = CV.none then [] else cv.show ++ [' ']) ++ (shown simple ++ shown decl) := by
  have h1 : S.declop.hdr = [] := rfl
  have h2 : S.declop.trailer = [] := rfl
  simp only [shown, txt, cat_eq, tput_eq, sliceTxt_eq, h1, h2, cv_ne_decide, Ast.isNil, if_true, List.nil_append,
    List.append_nil]
  cases decl with
  | nil => simp only [Ast.isNil, if_true, txt]
  | cons a l => simp only [Ast.isNil, Bool.false_eq_true, if_false]

theorem shown_stId (i : Ast .idExpr) : shown (.stId i) = shown i := by simp only [shown, txt]
theorem shown_legacy (n : LegacyName) : shown (.stLegacy n) = n.show.toList := by simp only [shown, txt, tput_eq]
theorem shown_auto (n : Nat) : shown (.stAuto n) = "auto:".toList ++ digits n := by
  simp only [shown, txt, tput_eq, digits]
theorem shown_id (p : Ast .path) (u : Ast .uid) : shown (.idExpr p u) = shown p ++ shown u := by
  simp only [shown, txt, cat_eq]
theorem shown_path (r : Bool) (l : Ast (.list .scope)) :
    shown (.path r l) = (if r then "::".toList else []) ++ shown l := by
  have h1 : S.scope.hdr = [] := rfl
  have h2 : S.scope.trailer = [] := rfl
  simp only [shown, txt, cat_eq, tput_eq, sliceTxt_eq, h1, h2, wtxt_eq, List.nil_append, List.append_nil]
theorem shown_scopes (a : Ast .scope) (l : Ast (.list .scope)) : shown (.cons a l) = shown a ++ shown l := by
  have h1 : S.scope.sep = [] := rfl
  simp only [shown, txt, cat_eq, tput_eq, h1, wtxt_eq]
  cases l.isNil <;> rfl
theorem shown_scope (u : Ast .uid) (sg : Ast (.opt .sig)) : shown (.scope u sg) = shown u ++ (shown sg ++ "::".toList) := by
  simp only [shown, txt, cat_eq, tput_eq]
theorem shown_named (d : Bool) (i : Ident) (tp : Ast (.opt .tparams)) :
    shown (.named d i tp) = (if d then ['~'] else []) ++ (i ++ shown tp) := by
  simp only [shown, txt, cat_eq, tput_eq, wtxt_eq]
theorem shown_opId (o : Ast .op) (tp : Ast (.opt .tparams)) : shown (.opId o tp) = txt .declaration o ++ shown tp := by
  simp only [shown, txt, cat_eq]
theorem shown_decltype (v : Ast .value) : shown (.decltype v) = "decltype(".toList ++ (shown v ++ [')']) := by
  simp only [shown, txt, cat_eq, tput_eq]
theorem shown_anonId (a : Ast .anon) : shown (.anonId a) = shown a := by simp only [shown, txt]
theorem shown_clangLambda (l : Loc) : shown (.clangLambda l) = "(lambda at ".toList ++ l.show ++ [')'] := by
  simp only [shown, txt, tput_eq]
theorem shown_anonymous : shown (.clangOther none none) = "(anonymous".toList ++ [')'] := by
  simp only [shown, txt, tput_eq, cat_eq, List.nil_append]
theorem shown_anonymousKind (i : Ident) : shown (.clangOther (some i) none) = "(anonymous".toList ++ ([' '] ++ i ++ [')']) := by
  simp only [shown, txt, tput_eq, cat_eq, List.nil_append, List.append_assoc]
theorem shown_anonymousAt (i : Ident) (l : Loc) : shown (.clangOther (some i) (some l)) =
    "(anonymous".toList ++ ([' '] ++ i ++ (" at ".toList ++ l.show ++ [')'])) := by
  simp only [shown, txt, tput_eq, cat_eq, List.nil_append, List.append_assoc]
theorem shown_libLambda (sg : Ast .sig) (n : Nat) : shown (.libLambda sg n) =
    "{lambda".toList ++ (shown sg ++ (['#'] ++ digits n ++ ['}'])) := by
  simp only [shown, txt, tput_eq, cat_eq, digits]
theorem shown_libUnnamed (n : Nat) : shown (.libUnnamed n) = "{unnamed type#".toList ++ digits n ++ ['}'] := by
  simp only [shown, txt, tput_eq, cat_eq, digits]
theorem shown_tpList (l : Ast (.list .tparam)) : shown (.tpList l) = '<' :: (shown l ++ ['>']) := by
  have h1 : S.tparam.hdr = ['<'] := by decide +kernel
  have h2 : S.tparam.trailer = ['>'] := by decide +kernel
  simp only [shown, txt, sliceTxt_eq, h1, h2]; rfl
theorem shown_tpVoid : shown .tpVoid = "<, void>".toList := by simp only [shown, txt, tput_eq]
theorem shown_tparams (a : Ast .tparam) (l : Ast (.list .tparam)) :
    shown (.cons a l) = shown a ++ ((if l.isNil then [] else [',', ' ']) ++ shown l) := by
  have h1 : S.tparam.sep = [',', ' '] := by decide +kernel
  simp only [shown, txt, cat_eq, tput_eq, h1, wtxt_eq]
  cases l.isNil <;> rfl
theorem shown_tpTy (a : Ast .ty) : shown (.tpTy a) = shown a := by simp only [shown, txt]
theorem shown_tpVal (a : Ast .value) : shown (.tpVal a) = shown a := by simp only [shown, txt]
theorem shown_params (a : Ast .ty) (l : Ast (.list .ty)) :
    shown (.cons a l) = shown a ++ ((if l.isNil then [] else [',', ' ']) ++ shown l) := by
  have h1 : S.ty.sep = [',', ' '] := by decide +kernel
  simp only [shown, txt, cat_eq, tput_eq, h1, wtxt_eq]
  cases l.isNil <;> rfl
theorem shown_decls (a : Ast .declop) (l : Ast (.list .declop)) : shown (.cons a l) = shown a ++ shown l := by
  have h1 : S.declop.sep = [] := rfl
  simp only [shown, txt, cat_eq, tput_eq, h1, wtxt_eq]
  cases l.isNil <;> rfl
theorem shown_dCv (cv : CV) : shown (.dCv cv) = [' '] ++ cv.show := by simp only [shown, txt, tput_eq]
theorem shown_dPtr (p : Ast .path) (cv : CV) (r : Bool) : shown (.dPtr p cv r) =
    (if p.shown then [' '] ++ shown p else []) ++ ('*' :: ptrShow cv r) := by
  simp only [shown, txt, cat_eq, tput_eq, cv_ne_decide]
  rw [wtxt_eq, ptrShow]; rfl
theorem shown_dRef (r : Ref) : shown (.dRef r) = r.show := by simp only [shown, txt, tput_eq]
theorem shown_dArr (v : Ast (.opt .value)) : shown (.dArr v) = '[' :: (shown v ++ [']']) := by
  simp only [shown, txt, cat_eq, tput_eq]; rfl
theorem shown_dFun (sg : Ast .sig) : shown (.dFun sg) = shown sg := by simp only [shown, txt]
theorem shown_dParen (d : Ast (.list .declop)) : shown (.dParen d) = [' '] ++ '(' :: (shown d ++ [')']) := by
  have h1 : S.declop.hdr = [] := rfl
  have h2 : S.declop.trailer = [] := rfl
  have h3 : str " (" = [' ', '('] := by decide +kernel
  simp only [shown, txt, cat_eq, tput_eq, sliceTxt_eq, h1, h2, h3, List.append_nil, List.nil_append]; rfl
theorem shown_dVec (v : Ast .value) : shown (.dVec v) = [' '] ++ ("__vector(".toList ++ (shown v ++ [')'])) := by
  have h3 : str " __vector(" = [' '] ++ "__vector(".toList := by decide +kernel
  simp only [shown, txt, cat_eq, tput_eq, h3, List.append_assoc]
theorem shown_value (h : Ast .header) (l : Ast (.list .after)) : shown (.value h l) = shown h ++ shown l := by
  have h1 : S.after.hdr = [] := rfl
  have h2 : S.after.trailer = [] := rfl
  simp only [shown, txt, cat_eq, sliceTxt_eq, h1, h2, List.append_nil, List.nil_append]
theorem shown_trail (a : Ast .after) (l : Ast (.list .after)) : shown (.cons a l) = shown a ++ shown l := by
  have h1 : S.after.sep = [] := rfl
  simp only [shown, txt, cat_eq, tput_eq, h1, wtxt_eq]
  cases l.isNil <;> rfl
theorem shown_aCall (l : Ast (.list .value)) : shown (.aCall l) = shown (.args l) := by simp only [shown, txt]
theorem shown_aIndex (v : Ast .value) : shown (.aIndex v) = '[' :: (shown v ++ [']']) := by
  simp only [shown, txt, cat_eq, tput_eq]; rfl
theorem shown_aMember (u : Ast .uid) : shown (.aMember u) = '.' :: shown u := by
  simp only [shown, txt, cat_eq, tput_eq]; rfl
theorem shown_aEllipsis : shown .aEllipsis = "...".toList := by simp only [shown, txt, tput_eq]
theorem shown_aTernary (v w : Ast .value) :
    shown (.aTernary v w) = [' '] ++ '?' :: ([' '] ++ (shown v ++ ([' '] ++ ':' :: ([' '] ++ shown w)))) := by
  have e1 : str " ? " = [' ', '?', ' '] := by decide +kernel
  have e2 : str " : " = [' ', ':', ' '] := by decide +kernel
  simp only [shown, txt, cat_eq, tput_eq, e1, e2]; rfl
theorem post_decl (x : List Char) : wtxt (decide (Ctx.postfixUsage = Ctx.declaration)) x = [] := by simp [wtxt_eq]
theorem post_binary (x : List Char) : wtxt (decide (Ctx.postfixUsage = Ctx.binaryUsage)) x = [] := by simp [wtxt_eq]
theorem bin_decl (x : List Char) : wtxt (decide (Ctx.binaryUsage = Ctx.declaration)) x = [] := by simp [wtxt_eq]
theorem shown_aPostfix (y : Symbol) : shown (.aPostfix (.arith (.basic y true false))) = [y.char, y.char] := by
  have : (ArithOp.basic y true false).text = [y.char, y.char] := rfl
  simp only [shown, txt, cat_eq, tput_eq, post_decl, post_binary, this, List.nil_append, List.append_nil]
/-- The blanks around a binary operator. -/
def opBlank (o : ArithOp) : List Char := if isArrow o then [] else [' ']
theorem opBlank_blank (o : ArithOp) : Blank (opBlank o) := by
  unfold opBlank; split; exact blank_nil; exact blank_one
theorem shown_aBinary (o : ArithOp) (v : Ast .value) :
    shown (.aBinary (.arith o) v) = opBlank o ++ (o.text ++ (opBlank o ++ shown v)) := by
  cases o <;> simp only [shown, txt, cat_eq, tput_eq, bin_decl, w_true, List.nil_append, List.append_assoc] <;> rfl
theorem shown_hParen (v : Ast .value) : shown (.hParen v) = '(' :: (shown v ++ [')']) := by
  simp only [shown, txt, cat_eq, tput_eq]; rfl
theorem shown_hSizeOf (a : Ast .ty) : shown (.hSizeOf a) = "sizeof(".toList ++ (shown a ++ [')']) := by
  simp only [shown, txt, cat_eq, tput_eq]
theorem shown_hDeclVal (a : Ast .ty) : shown (.hDeclVal a) = "declval(".toList ++ (shown a ++ [')']) := by
  simp only [shown, txt, cat_eq, tput_eq]
theorem shown_hIncDec (y : Symbol) (v : Ast .value) :
    shown (.hUnary (.arith (.basic y true false)) v) = y.char :: y.char :: shown v := by
  have : (ArithOp.basic y true false).text = [y.char, y.char] := rfl
  simp only [shown, txt, cat_eq, tput_eq, pre_decl, pre_binary, this, List.nil_append, List.append_nil]; rfl
theorem shown_hLit (l : Literal) : shown (.hLit l) = l.show := by simp only [shown, txt, tput_eq]
theorem shown_hCast (a : Ast .ty) (v : Ast .value) :
    shown (.hUnary (.conversion a) v) = '(' :: (shown a ++ ')' :: shown v) := by
  simp only [shown, txt, cat_eq, tput_eq, pre_decl, w_true, List.nil_append, List.append_assoc]; rfl
theorem shown_hUnary (y : Symbol) (v : Ast .value) :
    shown (.hUnary (.arith (.basic y false false)) v) = y.char :: shown v := by
  have : (ArithOp.basic y false false).text = [y.char] := rfl
  simp only [shown, txt, cat_eq, tput_eq, pre_decl, pre_binary, this, List.nil_append, List.append_nil]; rfl
theorem shown_hId (i : Ast .idExpr) : shown (.hId i) = shown i := by simp only [shown, txt]

theorem isNil_of_ne {s : S} {l : Ast (.list s)} (h : l ≠ .nil) : l.isNil = false := by
  cases l with
  | nil => exact absurd rfl h
  | cons a l => rfl

theorem sig_ne {K : Char → Prop} {sg : Ast .sig} {t : List Char} (h : Spells K sg t) : t ≠ [] := by
  cases h with
  | sig0 _ _ _ _ _ => simp
  | sig _ _ _ _ _ _ _ _ _ _ _ => simp

/-- Whatever the spelling an entity is read from, its display spells it again. -/
theorem spells_shown {s : S} {a : Ast s} {t : List Char} (h : Spells PlainChar a t) : RT a := by
  induction h with
  | @ty cv ct b1 simple st b2 decl dt hcv hb1 hiff hs hb2 hd h1 h2 h3 h4 ih1 ih2 =>
    obtain ⟨b, u, e, hb, hu, hid, hn, hf⟩ := ih2
    refine (Spells.ty (b1 := if cv = CV.none then [] else [' ']) (cvText_show cv) ?_ ?_ ih1 hb hu hn hid ?_ h4).cast ?_
    · split; exact blank_nil; exact blank_one
    · constructor
      · intro h; rw [if_pos (cv_show_none h)]
      · intro h
        by_cases hc : cv = CV.none
        · rw [hc]; decide
        · rw [if_neg hc] at h; cases h
    · intro hop
      refine ⟨?_, (h3 hop).2⟩
      rcases (h3 hop).2 with hf0 | hf0
      · refine hn ?_
        cases decl with
        | nil => rfl
        | cons a l => cases hf0
      · exact hf hf0
    · rw [shown_ty, e]
      by_cases hc : cv = CV.none
      · rw [if_pos hc, if_pos hc, hc]
        simp only [List.append_assoc]; rfl
      · rw [if_neg hc, if_neg hc]
        simp only [List.append_assoc]
  | @tyAttr l t b cv simple decl tt hne _ _ _ ih1 ih2 =>
    exact (Spells.tyAttr (b := [' ']) hne ih1 blank_one ih2).cast (by
      rw [shown_tyAttr (isNil_of_ne hne)]; simp only [List.append_assoc, List.cons_append, List.nil_append])
  | legacy h => exact (Spells.legacy (legacyText_show _)).cast (shown_legacy _).symm
  | auto h => exact (Spells.auto h).cast (shown_auto _).symm
  | stId _ ih => exact (Spells.stId ih).cast (shown_stId _).symm
  | elaborated _ _ _ _ ih => exact (Spells.stId ih).cast (shown_stId _).symm
  | idExpr _ _ ih1 ih2 => exact (Spells.idExpr ih1 ih2).cast (shown_id _ _).symm
  | path _ hl ih => exact (Spells.path ih hl).cast (shown_path _ _).symm
  | scopesNil => exact Spells.scopesNil.cast shown_nil.symm
  | scopesCons _ _ ih1 ih2 => exact (Spells.scopesCons ih1 ih2).cast (shown_scopes _ _).symm
  | scope _ hc ih => exact (Spells.scope ih hc).cast (by rw [shown_scope, shown_none, List.nil_append])
  | scopeSig _ hc _ ht _ ih1 ih2 =>
    exact (Spells.scopeSig (b := []) ih1 hc ih2 ht blank_nil).cast
      (by rw [shown_scope, shown_some, List.append_nil, List.append_assoc])
  | named hi => exact (Spells.named hi).cast (by rw [shown_named, shown_none, List.append_nil])
  | namedT hi _ _ ih =>
    exact (Spells.namedT (b := []) hi blank_nil ih).cast
      (by rw [shown_named, shown_some, List.append_nil, List.append_assoc])
  | opId ho hne =>
    obtain ⟨u, hu, e⟩ := opText_shown ho
    exact (Spells.opId hu hne).cast (by rw [shown_opId, shown_none, List.append_nil, e])
  | opIdT ho _ _ ih =>
    obtain ⟨u, hu, e⟩ := opText_shown ho
    exact (Spells.opIdT (b := []) hu blank_nil ih).cast (by rw [shown_opId, shown_some, e, List.append_nil])
  | opConv _ _ _ ha ih =>
    exact (Spells.opConv (b := [' ']) blank_one (by simp) ih ha).cast (by
      rw [shown_opId, shown_none, List.append_nil, shown_conv, List.append_assoc])
  | decltype _ _ hv _ ih =>
    exact (Spells.decltype (b := []) (b' := []) blank_nil ih hv blank_nil).cast
      (by rw [shown_decltype]; simp only [List.append_nil, List.append_assoc, List.nil_append])
  | anonId _ ih => exact (Spells.anonId ih).cast (shown_anonId _).symm
  | clangLambda h => exact (Spells.clangLambda (locText_show h)).cast (shown_clangLambda _).symm
  | anonymous _ =>
    have e : "(anonymous".toList = '(' :: "anonymous".toList := by decide +kernel
    exact (Spells.anonymous (w := "anonymous") (by decide)).cast (by rw [shown_anonymous, e])
  | anonymousKind _ hi =>
    have e : "(anonymous".toList = '(' :: "anonymous".toList := by decide +kernel
    exact (Spells.anonymousKind (w := "anonymous") (by decide) hi).cast (by
      rw [shown_anonymousKind, e]; simp only [List.append_assoc, List.cons_append, List.nil_append])
  | anonymousAt _ hi hl =>
    have e : "(anonymous".toList = '(' :: "anonymous".toList := by decide +kernel
    exact (Spells.anonymousAt (w := "anonymous") (by decide) hi (locText_show hl)).cast (by
      rw [shown_anonymousAt, e]; simp only [List.append_assoc, List.cons_append, List.nil_append])
  | libLambda _ _ hn ih =>
    exact (Spells.libLambda (b := []) ih blank_nil hn).cast (by
      rw [shown_libLambda]; simp only [List.append_assoc, List.cons_append, List.nil_append])
  | libUnnamed hn => exact (Spells.libUnnamed hn).cast (shown_libUnnamed _).symm
  | tpNil _ => exact (Spells.tpNil (b := []) blank_nil).cast (by rw [shown_tpList, shown_nil]; rfl)
  | tpList hne hlen _ _ _ ih =>
    exact (Spells.tpList (b := []) (b' := []) hne hlen blank_nil ih blank_nil).cast (by
      rw [shown_tpList]; simp only [List.append_assoc, List.cons_append, List.nil_append, List.append_nil])
  | tpVoid => exact Spells.tpVoid.cast shown_tpVoid.symm
  | tparamsOne _ ih =>
    exact (Spells.tparamsOne ih).cast (by rw [shown_tparams, shown_nil]; exact (List.append_nil _).symm)
  | tparamsCons _ _ _ hne _ ih1 ih2 =>
    exact (Spells.tparamsCons (b := []) (b' := [' ']) ih1 blank_nil blank_one hne ih2).cast (by
      rw [shown_tparams, isNil_of_ne hne]
      simp only [List.append_assoc, List.cons_append, List.nil_append, List.append_nil, Bool.false_eq_true, if_false])
  | tpTy _ ha ih => exact (Spells.tpTy ih ha).cast (shown_tpTy _).symm
  | tpVal _ ha hc hg ih => exact (Spells.tpVal ih ha hc hg).cast (shown_tpVal _).symm
  | @sig0 abi b cv ref q nx nt tr rt ha _ _ _ _ ih1 ih2 =>
    exact (Spells.sig0 (b := []) ha blank_nil (sigQuals_shown cv ref) ih1 ih2).cast (by
      rw [shown_sig, shown_nil]
      simp only [List.append_assoc, List.cons_append, List.nil_append, List.append_nil, Bool.false_eq_true, if_false])
  | @sig abi l variadic b t b' c c' cv ref q nx nt tr rt ha hne hlen _ _ _ _ _ _ _ _ ih ih1 ih2 =>
    have e : ", ...".toList = ',' :: [' '] ++ "...".toList := by decide +kernel
    refine (Spells.sig (b := []) (b' := []) (c := [' ']) (c' := []) ha hne hlen blank_nil ih blank_nil blank_one blank_nil
      (sigQuals_shown cv ref) ih1 ih2).cast ?_
    rw [shown_sig, e]
    cases variadic <;> simp only [List.append_assoc, List.cons_append, List.nil_append, List.append_nil]
  | nxNone => exact Spells.nxNone.cast shown_nxNone.symm
  | nxPlain _ _ => exact (Spells.nxPlain blank_one (by simp)).cast shown_nxPlain.symm
  | nxArg _ _ _ _ hv _ ih =>
    exact (Spells.nxArg (c := []) (c' := []) blank_one (by simp) blank_nil ih hv blank_nil).cast (by
      rw [shown_nxArg]; simp only [List.append_assoc, List.cons_append, List.nil_append, List.append_nil])
  | trNone => exact Spells.trNone
  | @trSome b b' a t _ _ _ ha ih =>
    have e : " -> ".toList = [' '] ++ "->".toList ++ [' '] := by decide +kernel
    refine (Spells.trSome blank_one blank_one ih ha).cast ?_
    rw [show (Ast.some a).isNone = false from rfl, if_neg (by simp), e, shown_some]
  | paramsOne _ ha ih =>
    exact (Spells.paramsOne ih ha).cast (by rw [shown_params, shown_nil]; exact (List.append_nil _).symm)
  | paramsCons _ ha _ _ hne _ ih1 ih2 =>
    exact (Spells.paramsCons (b := []) (b' := [' ']) ih1 ha blank_nil blank_one hne ih2).cast (by
      rw [shown_params, isNil_of_ne hne]
      simp only [List.append_assoc, List.cons_append, List.nil_append, List.append_nil, Bool.false_eq_true, if_false])
  | declNil => exact ⟨[], [], shown_nil, blank_nil, .declNil, fun e => (nomatch e), fun _ => rfl, fun _ => rfl⟩
  | @declCons d t b l tl hd _ hl hm hn hid hlen ih1 ih2 =>
    obtain ⟨b1, u1, e1, hb1, hu1, hid1, hf1, hne1⟩ := ih1
    obtain ⟨b2, u2, e2, hb2, hu2, hid2, hn2, hf2⟩ := ih2
    refine ⟨b1, u1 ++ b2 ++ u2, ?_, hb1, .declCons hu1 hb2 hu2 hm hn2 hid2 hlen, ?_, fun e => (nomatch e), ?_⟩
    · rw [shown_decls, e1, e2]; simp only [List.append_assoc]
    · intro h
      refine hid1 ?_
      cases u1 with
      | nil => exact absurd rfl hne1
      | cons c u1 => exact h
    · intro h
      simp only [Ast.first, Option.some.injEq] at h
      exact hf1 h
  | @dCv cv t hne h =>
    refine ⟨[' '], cv.show, shown_dCv cv, blank_one, .dCv hne (cvText_show cv), fun _ => (by simp), fun e => (nomatch e), ?_⟩
    intro e; exact hne (cv_show_none e)
  | @dPtr cv r q hq =>
    have hq' := ptrQuals_shown hq
    have e := shown_dPtr (.path false .nil) cv r
    generalize ptrShow cv r = x at hq' e
    refine ⟨[], '*' :: x, ?_, blank_nil, .dPtr hq', ?_, fun e => (nomatch e), by simp⟩
    · rw [e]; simp only [Ast.shown, Ast.isNil, Bool.not_true, Bool.or_self, Bool.false_eq_true, if_false]
    · intro h
      exact absurd h (by simp only [idHead]; decide)
  | @dMember l t cv r q hl hn hlen hq ih =>
    have hs : Ast.shown (.path false l) = true := by
      cases l with
      | nil => cases hn
      | cons a l => rfl
    have hq' := ptrQuals_shown hq
    have e := shown_dPtr (.path false l) cv r
    generalize ptrShow cv r = x at hq' e
    refine ⟨[' '], shown l ++ '*' :: x, ?_, blank_one, .dMember ih hn hlen hq', fun _ => (by simp), fun e => (nomatch e), by simp⟩
    rw [e, if_pos hs, shown_path]
    simp only [Bool.false_eq_true, if_false, List.append_assoc, List.cons_append, List.nil_append]
  | @dRef r hr =>
    refine ⟨[], r.show, shown_dRef r, blank_nil, .dRef hr, ?_, fun e => (nomatch e), ?_⟩
    · cases r <;> decide +kernel
    · cases r <;> first | exact absurd rfl hr | decide +kernel
  | dArr0 _ =>
    refine ⟨[], _, ?_, blank_nil, .dArr0 (b := []) blank_nil, ?_, fun e => (nomatch e), by simp⟩
    · rw [shown_dArr, shown_none]; rfl
    · intro h; exact absurd h (by decide)
  | dArr _ _ hv _ ih =>
    refine ⟨[], _, ?_, blank_nil, .dArr (b := []) (b' := []) blank_nil ih hv blank_nil, ?_, fun e => (nomatch e), by simp⟩
    · rw [shown_dArr, shown_some]; simp only [List.append_assoc, List.cons_append, List.nil_append, List.append_nil]
    · intro h; exact absurd h (by simp only [List.cons_append, idHead]; decide)
  | dFun _ ih =>
    refine ⟨[], _, shown_dFun _, blank_nil, .dFun ih, ?_, fun _ => rfl, ?_⟩
    · intro h
      have := sig_idHead ih []
      rw [List.append_nil, h] at this; cases this
    · exact sig_ne ih
  | dParen _ _ hp _ ih =>
    obtain ⟨b, u, e, hb, hu, _⟩ := ih
    refine ⟨[' '], _, ?_, blank_one, .dParen (b' := []) hb hu hp blank_nil, fun _ => (by simp), fun e => (nomatch e), by simp⟩
    rw [shown_dParen, e]; simp only [List.append_assoc, List.cons_append, List.nil_append, List.append_nil]
  | dVec _ hv ih =>
    refine ⟨[' '], _, ?_, blank_one, .dVec ih hv, fun _ => (by simp), fun e => (nomatch e), by simp⟩
    rw [shown_dVec]; simp only [List.append_assoc]
  | value _ _ hm hlen ih1 ih2 => exact (Spells.value ih1 ih2 hm hlen).cast (shown_value _ _).symm
  | hLit h => exact (Spells.hLit (litText_show h)).cast (shown_hLit _).symm
  | hCast _ _ _ _ _ _ ih1 ih2 =>
    exact (Spells.hCast (b := []) (b' := []) (c := []) blank_nil ih1 (fun _ => rfl) blank_nil blank_nil ih2).cast (by
      rw [shown_hCast]; simp only [List.append_assoc, List.cons_append, List.nil_append, List.append_nil])
  | hUnary hy _ _ hs ih => exact (Spells.hUnary (b := []) hy blank_nil ih hs).cast (by rw [shown_hUnary]; rfl)
  | hIncDec hy _ _ ih => exact (Spells.hIncDec (b := []) hy blank_nil ih).cast (by rw [shown_hIncDec]; rfl)
  | hParen _ _ _ ih =>
    exact (Spells.hParen (b := []) (b' := []) blank_nil ih blank_nil).cast (by
      rw [shown_hParen]; simp only [List.append_assoc, List.cons_append, List.nil_append, List.append_nil])
  | hSizeOf _ _ _ ih =>
    exact (Spells.hSizeOf (b := []) ih (fun _ => rfl) blank_nil).cast (by
      rw [shown_hSizeOf]; simp only [List.append_assoc, List.append_nil])
  | hDeclVal _ _ _ ih =>
    exact (Spells.hDeclVal (b := []) ih (fun _ => rfl) blank_nil).cast (by
      rw [shown_hDeclVal]; simp only [List.append_assoc, List.append_nil])
  | hEllipsis => exact Spells.hEllipsis.cast (by simp only [shown, txt, tput_eq])
  | trailNil => exact Spells.trailNil.cast shown_nil.symm
  | trailCall _ _ _ ih1 ih2 =>
    exact (Spells.trailCall (b := []) blank_nil ih1 ih2).cast (by rw [shown_trail, shown_aCall]; rfl)
  | trailIndex _ _ _ hv _ _ ih1 ih2 =>
    exact (Spells.trailIndex (b := []) (c := []) (c' := []) blank_nil blank_nil ih1 hv blank_nil ih2).cast (by
      rw [shown_trail, shown_aIndex]
      simp only [List.append_assoc, List.cons_append, List.nil_append, List.append_nil])
  | trailMember _ _ _ ho hc _ hf ih1 ih2 =>
    exact (Spells.trailMember (b := []) (c := []) blank_nil blank_nil ih1 ho hc ih2 hf).cast (by
      rw [shown_trail, shown_aMember]; simp only [List.append_assoc, List.cons_append, List.nil_append, List.append_nil])
  | trailEllipsis _ _ ih =>
    exact (Spells.trailEllipsis (b := []) blank_nil ih).cast (by rw [shown_trail, shown_aEllipsis]; rfl)
  | trailPostfix hy _ =>
    exact (Spells.trailPostfix (b := []) hy blank_nil).cast (by rw [shown_trail, shown_aPostfix, shown_nil]; rfl)
  | @trailBinary w o _ _ v _ hw _ _ _ hbe hcs hamp ih =>
    have ht : w.toList = o.text := (binaryTable_text (w, o) hw).1
    have ha : isArrow o = true → o.text.head?.any (fun c => ['=', '>'].contains c) = false := by
      cases o <;> intro e
      · cases e
      · rfl
      · cases e
    refine (Spells.trailBinary hw (opBlank_blank o) (opBlank_blank o) ih ?_ ?_ hamp).cast ?_
    · intro e
      have : isArrow o = false := by
        cases h : isArrow o with
        | false => rfl
        | true => rw [ha h] at e; cases e
      simp [opBlank, this]
    · intro e
      have := (hcs e).2
      exact ⟨by simp [opBlank, this], this⟩
    · rw [shown_trail, shown_aBinary, shown_nil, ht, List.append_nil]; simp only [List.append_assoc]
  | trailTernary _ _ _ _ _ hv _ _ ih1 ih2 =>
    refine (Spells.trailTernary blank_one blank_one blank_one blank_one ih1 hv ih2 (fun e => absurd e (by simp))).cast ?_
    rw [shown_trail, shown_aTernary, shown_nil]; simp only [List.append_assoc, List.cons_append, List.nil_append, List.append_nil]
  | hId hi ho hc hv ih => exact (Spells.hId ih ho hc (valueName_any hi ih hv)).cast (shown_hId _).symm
  | args0 _ => exact (Spells.args0 (b := []) blank_nil).cast (by rw [shown_args, shown_nil]; rfl)
  | args hne hlen _ _ _ ih =>
    exact (Spells.args (b := []) (b' := []) hne hlen blank_nil ih blank_nil).cast (by
      rw [shown_args]; simp only [List.append_assoc, List.cons_append, List.nil_append, List.append_nil])
  | valuesOne _ hv ih =>
    exact (Spells.valuesOne ih hv).cast (by rw [shown_values, shown_nil]; exact (List.append_nil _).symm)
  | valuesCons _ hv _ _ hne _ ih1 ih2 =>
    exact (Spells.valuesCons (b := []) (b' := [' ']) ih1 hv blank_nil blank_one hne ih2).cast (by
      rw [shown_values, isNil_of_ne hne]
      simp only [List.append_assoc, List.cons_append, List.nil_append, List.append_nil, Bool.false_eq_true, if_false])

/-- An entity displayed with a recursion budget above its depth. -/
theorem display_shown (a : Ast .ty) (r : Nat) (h : depth a < r) : Entity.display (some a) r = shown a := by
  obtain ⟨N, hN⟩ := disp_full a .postfixUsage
  have h1 := (hN ⟨[], none, (max r N : Nat), []⟩ rfl (by simp only; omega)).2.1
  rw [entity_same (some a) 1 (fun h => (nomatch h)) r (max r N) h (by
    show depth a + 1 ≤ max r N; omega)]
  rw [List.nil_append] at h1
  exact h1

/-- **C64.** What is displayed, with a recursion budget above the depth of the entity, is read as
the same entity. -/
theorem c64_round_trip {a : Ast .ty} {t : List Char} (h : Spells PlainChar a t) (r : Nat) (hr : depth a < r) :
    parseEntity (Entity.display (some a) r) = .ok [] (some a) := by
  rw [display_shown a r hr]
  exact c63_reads (spells_shown h)

/-- **C64.** Two entities that are displayed alike, with enough budget, are the same. -/
theorem c64_injective {a b : Ast .ty} {t u : List Char} (ha : Spells PlainChar a t) (hb : Spells PlainChar b u) (r r' : Nat)
    (hr : depth a < r) (hr' : depth b < r') (h : Entity.display (some a) r = Entity.display (some b) r') : a = b := by
  have h1 := c64_round_trip ha r hr
  rw [h, c64_round_trip hb r' hr'] at h1
  simp only [Res.ok.injEq, Option.some.injEq, true_and] at h1
  exact h1.symm

/-- **C64.** Displaying what was read, and reading it again, changes nothing any more: the display
is a canonical spelling. -/
theorem c64_canonical {a : Ast .ty} {t : List Char} (h : Spells PlainChar a t) (r : Nat) (hr : depth a < r) :
    ∃ b, parseEntity t = .ok [] (some b) ∧ Spells PlainChar b (Entity.display (some b) r) ∧
      parseEntity (Entity.display (some b) r) = .ok [] (some b) := by
  refine ⟨a, c63_reads h, ?_, c64_round_trip h r hr⟩
  rw [display_shown a r hr]
  exact spells_shown h

/-- The display of the example, which is not the spelling it was read from. -/
example : Entity.display (some exMember) 7 = "std::pair<char const*, 3>::f(T&&) const noexcept".toList := by
  decide +kernel
example : parseEntity (Entity.display (some exMember) 7) = .ok [] (some exMember) :=
  c64_round_trip exMember_spells 7 (by decide +kernel)

example : Entity.display (some exTrail) 7 = "f() noexcept('A') -> int".toList := by decide +kernel
example : parseEntity (Entity.display (some exTrail) 7) = .ok [] (some exTrail) :=
  c64_round_trip exTrail_spells 7 (by decide +kernel)
example : Entity.display (some exExpr) 12 = "A<x.f(2)[i] + -y>".toList := by decide +kernel
example : parseEntity (Entity.display (some exExpr) 12) = .ok [] (some exExpr) :=
  c64_round_trip exExpr_spells 12 (by decide +kernel)
example : parseEntity (Entity.display (some exAttr) 9) = .ok [] (some exAttr) :=
  c64_round_trip exAttr_spells 9 (by decide +kernel)

end Verif.Cpp
