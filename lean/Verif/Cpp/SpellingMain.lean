/-
C63: `parse_entity` reads what entities spell.
-/
import Verif.Cpp.SpellingLead

set_option autoImplicit false
set_option linter.unusedVariables false
set_option linter.unusedSimpArgs false

namespace Verif.Cpp

structure AnonGood (a : Ast .anon) (t : Input) : Prop where
  head : ∃ c u, t = c :: u ∧ (c = '(' ∨ c = '{')
  run : ∀ r, anonymous grammar (t ++ r) = .ok r a

/-- What the induction proves, for each kind of entity. -/
def Good : {s : S} → Ast s → Input → Prop
  | .ty => TyGood
  | .simple => SimpleGood
  | .idExpr => IdGood
  | .path => PathGood
  | .scope => ScopeGood
  | .uid => UidGood
  | .tparams => TparamsGood
  | .tparam => TparamGood
  | .anon => AnonGood
  | .sig => SigGood
  | .declop => DeclopGood
  | .value => ValueGood
  | .header => HeaderGood
  | .list .scope => ScopesGood
  | .list .tparam => TlistGood
  | .list .ty => ParamsGood
  | .list .declop => DeclsGood
  | .list .value => ValuesGood
  | .list .after => TrailersGood
  | .noexc => NoexGood
  | .opt .ty => TrailGood
  | .args => fun a t => ∃ l, a = .args l ∧ ArgsGood l t
  | _ => fun _ _ => True

theorem spells_good {K : Char → Prop} {s : S} {a : Ast s} {t : Input} (h : Spells K a t) : Good a t := by
  induction h with
  | ty hcv hb1 hcb _ hb2 _ hnil hid hop hcc ih1 ih2 => exact ty_good hcv hb1 hcb ih1 hb2 ih2 hnil hid hop hcc
  | tyAttr hne _ hb _ ih1 ih2 =>
    obtain ⟨l', e, hl⟩ := ih1
    simp only [Ast.args.injEq] at e
    subst e
    exact tyAttr_good hl hb ih2 hne
  | legacy h => exact legacy_good h
  | auto h => exact auto_good h
  | stId _ ih => exact stId_good ih
  | elaborated hw hb hne _ ih => exact elaborated_good hw hb hne ih
  | idExpr _ _ ih1 ih2 => exact idExpr_good ih1 ih2
  | path _ hl ih => exact path_good ih hl
  | scopesNil => exact scopesNil_good
  | scopesCons _ _ ih1 ih2 => exact scopesCons_good ih1 ih2
  | scope _ hc ih => exact scope_good ih hc
  | scopeSig _ hc _ htr hb ih1 ih2 => exact scopeSig_good ih1 hc ih2 htr hb
  | named h => exact named_good h
  | namedT h hb _ ih => exact namedT_good h hb ih
  | opId h hl => exact opId_good h hl
  | opIdT h hb _ ih => exact opIdT_good h hb ih
  | opConv hb hne _ ho ih => exact opConv_good hb hne ih ho
  | decltype hb _ hv hb' ih => exact decltype_good hb ih hv hb'
  | anonId _ ih => exact anonId_good (AnonGood.head ih) (AnonGood.run ih)
  | clangLambda h =>
    refine AnonGood.mk ⟨'(', ?_, ?_, Or.inl rfl⟩ fun r => clangLambda_run h
    rotate_left
    have : "(lambda at ".toList = '(' :: "lambda at ".toList := by decide +kernel
    rw [this]; rfl
  | anonymous hw => exact AnonGood.mk ⟨'(', _, rfl, Or.inl rfl⟩ fun r => anonymous_run hw r
  | anonymousKind hw hi => exact AnonGood.mk ⟨'(', _, rfl, Or.inl rfl⟩ fun r => anonymousKind_run hw hi r
  | anonymousAt hw hi ht => exact AnonGood.mk ⟨'(', _, rfl, Or.inl rfl⟩ fun r => anonymousAt_run hw hi ht r
  | @libLambda sg t b n _ hb hn ih =>
    refine AnonGood.mk ⟨'{', ?_, ?_, Or.inr rfl⟩ fun r => libLambda_run hn r ?_
    rotate_left
    · have : "{lambda".toList = '{' :: "lambda".toList := by decide +kernel
      rw [this]; rfl
    · rw [List.append_assoc]
      refine SigGood.run ih b _ hb ?_ fun _ => ⟨?_, NoEq.other (by decide) (by decide)⟩
      · intro c u e
        simp only [List.cons.injEq] at e
        rw [← e.1]; decide
      · intro c u e
        simp only [List.cons.injEq] at e
        rw [← e.1]; decide
  | libUnnamed hn =>
    refine AnonGood.mk ⟨'{', ?_, ?_, Or.inr rfl⟩ fun r => libUnnamed_run hn r
    rotate_left
    have : "{unnamed type#".toList = '{' :: "unnamed type#".toList := by decide +kernel
    rw [this]; rfl
  | tpNil hb => exact tpNil_good hb
  | tpList _ hlen hb _ hb' ih => exact tpList_good hlen hb ih hb'
  | tpVoid => exact tpVoid_good
  | tparamsOne _ ih => exact tparamsOne_good ih
  | tparamsCons _ hb hb' _ _ ih1 ih2 => exact tparamsCons_good ih1 hb hb' ih2
  | tpTy _ ha ih => exact tpTy_good ih ha
  | tpVal _ hv hc hg ih => exact tpVal_good ih hv hc hg
  | sig0 ha hb hq _ _ ih1 ih2 => exact sig0_good ha hb hq ih1 ih2
  | sig ha _ hlen hb _ hb' hc hc' hq _ _ ih ih1 ih2 => exact sig_good ha hlen hb ih hb' hc hc' hq ih1 ih2
  | nxNone => exact nxNone_good
  | nxPlain hb hne => exact nxPlain_good hb hne
  | nxArg hb hne hc _ hv hc' ih => exact nxArg_good hb hne hc ih hv hc'
  | trNone => exact trNone_good
  | trSome hb hb' _ ha ih => exact trSome_good hb hb' ih ha
  | paramsOne _ ha ih => exact paramsOne_good ih ha
  | paramsCons _ ha hb hb' _ _ ih1 ih2 => exact paramsCons_good ih1 ha hb hb' ih2
  | declNil => exact declNil_good
  | declCons _ hb _ hm hn hid hl ih1 ih2 => exact declCons_good ih1 hb ih2 hm hn hid hl
  | dCv hcv h => exact dCv_good hcv h
  | dPtr h => exact dPtr_good h
  | dMember _ hn hl hq ih => exact dMember_good ih hn hl hq
  | dRef hr => exact dRef_good hr
  | dArr0 hb => exact dArr0_good hb
  | dArr hb _ hv hb' ih => exact dArr_good hb ih hv hb'
  | dFun _ ih => exact dFun_good ih
  | dParen hb _ hp hb' ih => exact dParen_good hb ih hp hb'
  | dVec _ hv ih => exact dVec_good ih hv
  | value _ _ hm hlen ih1 ih2 => exact value_good ih1 ih2 hm hlen
  | hLit h => exact hLit_good h
  | hCast hb _ ho hb' hc _ ih1 ih2 => exact hCast_good hb ih1 ho hb' hc ih2
  | hUnary hy hb hv hs ih => exact hUnary_good hy hb ih fun e => value_sign hv (hs e)
  | hIncDec hy hb _ ih => exact hIncDec_good hy hb ih
  | hId _ ho hc hv ih => exact hId_good ih ho hc hv
  | hParen hb _ hb' ih => exact hParen_good hb ih hb'
  | hSizeOf _ ho hb ih => exact hSizeOf_good ih ho hb
  | hDeclVal _ ho hb ih => exact hDeclVal_good ih ho hb
  | hEllipsis => exact hEllipsis_good
  | trailNil => exact trailNil_good
  | trailCall hb _ _ ih1 ih2 =>
    obtain ⟨l', e, hl⟩ := ih1
    simp only [Ast.args.injEq] at e
    subst e
    exact trailCall_good hb hl ih2
  | trailIndex hb hc _ hv hc' _ ih1 ih2 => exact trailIndex_good hb hc ih1 hv hc' ih2
  | trailMember hb hc _ ho hcv _ hf ih1 ih2 => exact trailMember_good hb hc ih1 ho hcv ih2 hf
  | trailEllipsis hb _ ih => exact trailEllipsis_good hb ih
  | trailPostfix hy hb => exact trailPostfix_good hy hb
  | trailBinary hw hb hc hv hbe hcs hamp ih =>
    exact trailBinary_good hw hb hc ih hbe hcs hamp (value_sym hv) (value_amp hv)
  | trailTernary hb hc hc' hd _ hv hw hwa ih1 ih2 =>
    exact trailTernary_good hb hc hc' hd ih1 hv ih2 fun e c x ex => (value_amp hw (hwa e) c x ex).2
  | args0 hb => exact ⟨_, rfl, args0_good hb⟩
  | args _ hlen hb _ hb' ih => exact ⟨_, rfl, args_good hlen hb ih hb'⟩
  | valuesOne _ hv ih => exact valuesOne_good ih hv
  | valuesCons _ hv hb hb' _ _ ih1 ih2 => exact valuesCons_good ih1 hv hb hb' ih2

/-- **C63.** `parse_entity` reads every spelling of an entity as that entity. -/
theorem c63_reads {K : Char → Prop} {a : Ast .ty} {t : List Char} (h : Spells K a t) : parseEntity t = .ok [] (some a) := by
  have hg : TyGood a t := spells_good h
  have hstop : Stop [] := ⟨fun c r e => (nomatch e), NoEq.nil⟩
  have := hg.run [] [] Blank.nil hstop fun _ => ⟨rfl, ⟨NoSym.nil, NoSp.nil, fun r e => by
    have : "[]".toList = '[' :: "]".toList := by decide +kernel
    rw [this] at e; cases e⟩⟩
  simp only [List.append_nil] at this
  rw [parseEntity]
  exact bind_step (or_l (bind_step this rfl)) rfl

/-- **C63.** A text spells at most one entity. -/
theorem c63_unambiguous {K : Char → Prop} {a b : Ast .ty} {t : List Char} (ha : Spells K a t)
    (hb : Spells K b t) : a = b := by
  have h := c63_reads ha
  rw [c63_reads hb] at h
  simp only [Res.ok.injEq, Option.some.injEq, true_and] at h
  exact h.symm

/-- A signature with an ellipsis that is not last is not read. -/
theorem ellipsis_sig {a : Ast .ty} {t : Input} (h : TyGood a t) (ha : a.tyOp = false) (s : Input) :
    functionSignature grammar ("(..., ".toList ++ (t ++ ')' :: s)) = .err := by
  have e : "(..., ".toList = '(' :: ("...".toList ++ [',', ' ']) := by decide +kernel
  have e3 : "...".toList = '.' :: "..".toList := by decide +kernel
  obtain ⟨c, u, hcu, hc1, -⟩ := h.head
  have et : "(..., ".toList ++ (t ++ ')' :: s) = '(' :: ("...".toList ++ (',' :: ([' '] ++ (t ++ ([] ++ ')' :: s))))) := by
    rw [e]; simp only [List.append_assoc, List.cons_append, List.nil_append]
  rw [et, functionSignature]
  refine bind_step (opt_none (bind_err (tag_err_head (c := '[') (cs := "abi:".toList) (by decide +kernel) (by simp)))) ?_
  refine bind_err (spaced_err ?_)
  rw [parameterSet]
  refine bind_step (charSp_run (b := []) (r := "...".toList ++ (',' :: ([' '] ++ (t ++ ([] ++ ')' :: s))))) Blank.nil ?_)
    (or_err ?_ (bind_err (char_err ?_)))
  · rw [e3]; exact NoSp.cons (by decide)
  · have hl : P.sepTerm (parameterOrEllipsis grammar) (P.spCharSp ',') (P.spChar ')')
        ("...".toList ++ (',' :: ([' '] ++ (t ++ ([] ++ ')' :: s))))) = .ok s [none, some a] := by
      refine sepTerm_of (y := ',' :: ([' '] ++ (t ++ ([] ++ ')' :: s)))) ?_ ?_
      · rw [parameterOrEllipsis, gTy]
        refine or_r (bind_err (typeLike_bad ?_)) (bind_step (tag_run _ _) rfl)
        rw [e3]; exact badHead_cons (by decide) (by decide) (by decide)
      · refine sepTail_cons (y := ')' :: s) (spChar_err (b := []) Blank.nil (NoSp.cons (by decide)) (by simp))
          (spCharSp_run (b := []) Blank.nil (by decide) (b' := [' ']) (by intro c hc; simp at hc; subst hc; decide)
            (by rw [hcu]; exact NoSp.cons hc1))
          (param_run h ha Blank.nil (Stop.close (Or.inl rfl))) ?_
          (sepTail_end (spChar_run (b := []) Blank.nil (by decide)))
        simp only [List.length_cons, List.length_append, List.length_nil]; omega
    exact bind_step hl rfl
  · rw [e3]; simp

/-- **C63.** Nothing follows the ellipsis of a function: `f(..., T)` is rejected. -/
theorem c63_ellipsis_last {K : Char → Prop} {i : Ident} {a : Ast .ty} {t : List Char} (hi : IsName i)
    (h : Spells K a t) (ha : a.tyOp = false) :
    parseEntity (i ++ "(..., ".toList ++ t ++ [')']) = .err := by
  have hg : TyGood a t := spells_good h
  have hs := ellipsis_sig hg ha []
  have e : "(..., ".toList = '(' :: "..., ".toList := by decide +kernel
  have e1 : "..., ".toList = '.' :: ".., ".toList := by decide +kernel
  have et : i ++ "(..., ".toList ++ t ++ [')'] = i ++ "(..., ".toList ++ (t ++ [')']) := by
    simp only [List.append_assoc]
  rw [et, List.append_assoc]
  generalize t ++ [')'] = z at hs
  have hend : NameEnd ("(..., ".toList ++ z) := by
    refine ⟨?_, ?_⟩
    · rw [e]; exact UidEnd.of (by decide) (by decide) (by decide)
    · rw [scopeEnd]
      refine bind_step (opt_none hs) ?_
      rw [e]
      refine bind_step (many0_err (skip_err (b := []) Blank.nil (NoSp.cons (by decide))
        (cvOrRef_err (noWord_head (by decide)).2.2 (by simp)))) ?_
      exact bind_err (colon_tag (by simp))
  have hu := named_good (d := false) hi
  have hid : IdGood (.idExpr (.path false .nil) (.named false i .none)) ([] ++ (([] : Input) ++ i)) :=
    idExpr_good (path_good (rooted := false) (l := .nil) (t := []) scopesNil_good (by simp [Ast.len])) hu
  have hsg := stId_good hid
  have hst := hsg.starts _ hend.noId
  have hc := hsg.cv _ hend.noId
  have h1 := hsg.run [] ("(..., ".toList ++ z) Blank.nil (by rw [e]; exact NoSp.cons (by decide)) hend
    (by rw [e]; exact (noWord_head (by decide)).1)
    (by simp [Ast.simpleOp, Ast.idOp, Ast.uidOp]) (by simp [Ast.simpleConv, Ast.idConv, Ast.uidConv])
  simp only [List.nil_append] at h1 hc hst
  have hd : declOperator grammar ("(..., ".toList ++ z) = .err := by
    have hd : declOperator grammar ("(..., ".toList ++ z) =
      P.or (P.or (funDecl grammar) (parenDecl grammar)) (memberPointer grammar) ("(..., ".toList ++ z) := by
      rw [e]; rfl
    rw [hd]
    refine or_err (or_err ?_ ?_) ?_
    · rw [funDecl]; exact bind_err hs
    · rw [e, parenDecl, gDecl, List.cons_append]
      refine bind_step (charSp_run (b := []) (r := "..., ".toList ++ z) Blank.nil (by rw [e1]; exact NoSp.cons (by decide)))
        (bind_err (verify_err (a := .nil) (r := "..., ".toList ++ z) ?_ rfl))
      rw [declarator_eq, stepDeclarator]
      refine bind_step (many0_err (spaced_err ?_)) (internSeq_nil _)
      rw [e1]
      exact memberPointer_bad (badHead_cons (by decide) (by decide) (by decide)) (by simp)
    · rw [e, memberPointer, List.cons_append]
      have hw : ∀ w ∈ anonWords, word ("..., ".toList ++ z) ≠ w.toList := by
        rw [e1, List.cons_append, word_nil rfl]; decide +kernel
      refine bind_step (r := '(' :: ("..., ".toList ++ z)) (a := .path false .nil) ?_ (bind_err (char_err (by simp)))
      rw [nestedNameSpecifier, protoId_err (paren_uid_err hw) (by simp)]
  rw [parseEntity]
  refine bind_step (r := "(..., ".toList ++ z)
    (a := some (.ty .nil CV.none (.stId (.idExpr (.path false .nil) (.named false i .none))) .nil)) (or_l ?_) ?_
  · refine bind_step (r := "(..., ".toList ++ z) (a := .ty .nil CV.none (.stId (.idExpr (.path false .nil) (.named false i .none))) .nil) ?_ rfl
    rw [typeLike_eq, stepTypeLike]
    refine bind_step (r := i ++ ("(..., ".toList ++ z)) (a := .nil) ?_ ?_
    · refine spaced_run (b := []) ?_ Blank.nil hst.noSp
      rw [attributes]
      exact bind_step (opt_none (bind_err hst.attribute)) (internSeq_nil _)
    refine bind_step (spaced_run (b := []) (cv_none_run hc) Blank.nil hst.noSp) ?_
    refine bind_step h1 ?_
    rw [stepDeclarator]
    exact bind_step (bind_step (many0_err (spaced_err hd)) (internSeq_nil _)) rfl
  · rw [e]; rfl

end Verif.Cpp
