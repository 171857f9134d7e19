/-
C64: the text of an entity that is displayed in full.

`txt` is the display of EntityDisplay.lean without the recursion budget; `disp_full`
shows that a display with enough budget writes exactly that text.
-/
import Verif.Cpp.EntityProps

set_option autoImplicit false
set_option linter.unusedVariables false
set_option linter.unusedSimpArgs false

namespace Verif.Cpp

/-- Concatenation, to the right. -/
@[irreducible] def cat (a b : List Char) : List Char := a ++ b

theorem cat_eq (a b : List Char) : cat a b = a ++ b := by rw [cat]

@[inherit_doc cat] scoped infixr:60 " ⊹ " => cat

/-- A text. -/
@[irreducible] def tput (t : List Char) : List Char := t

theorem tput_eq (t : List Char) : tput t = t := by rw [tput]

/-- A text, if a condition holds. -/
@[irreducible] def wtxt (b : Bool) (t : List Char) : List Char := if b then t else []

/-- A sequence (slice.rs 115-129), given the text of its items and separators. -/
def sliceTxt {s : S} (l : Ast (.list s)) (items : List Char) : List Char := tput s.hdr ⊹ items ⊹ tput s.trailer

/-- `display_impl` of every entity (lines: see `disp`), when the recursion budget does not run out. -/
def txt (c : Ctx) : {s : S} → Ast s → List Char
  | _, .nil => []
  | _, .cons (s := s) a l =>
    txt .postfixUsage a ⊹ wtxt (!l.isNil) (tput s.sep) ⊹ txt .postfixUsage l
  | _, .none => []
  | _, .some a => txt c a
  | _, .ty attrs cv simple decl =>
    (if attrs.isNil then [] else
      tput (str "__attribute__(") ⊹ sliceTxt attrs (txt .postfixUsage attrs) ⊹ tput (str ") ")) ⊹
    wtxt (cv ≠ CV.none) (tput (cv.show ++ [' '])) ⊹
    txt .postfixUsage simple ⊹
    (if decl.isNil then [] else sliceTxt decl (txt .postfixUsage decl))
  | _, .stId i => txt .postfixUsage i
  | _, .stLegacy n => tput (str n.show)
  | _, .stAuto n => tput (str "auto:" ++ str (toString n))
  | _, .idExpr p u => txt .postfixUsage p ⊹ txt .postfixUsage u
  | _, .path rooted scopes =>
    wtxt rooted (tput (str "::")) ⊹ sliceTxt scopes (txt .postfixUsage scopes)
  | _, .scope u sg => txt .postfixUsage u ⊹ txt .postfixUsage sg ⊹ tput (str "::")
  | _, .named d id tp => wtxt d (tput ['~']) ⊹ tput id ⊹ txt .postfixUsage tp
  | _, .opId o tp => txt .declaration o ⊹ txt .postfixUsage tp
  | _, .decltype v => tput (str "decltype(") ⊹ txt .postfixUsage v ⊹ tput [')']
  | _, .anonId a => txt .postfixUsage a
  | _, .tpList l => sliceTxt l (txt .postfixUsage l)
  | _, .tpVoid => tput (str "<, void>")
  | _, .tpTy t => txt .postfixUsage t
  | _, .tpVal v => txt .postfixUsage v
  | _, .clangLambda loc => tput (str "(lambda at " ++ loc.show ++ [')'])
  | _, .clangOther id loc =>
    tput (str "(anonymous") ⊹
    (match id, loc with
      | some i, _ => tput ([' '] ++ i)
      | none, some _ => tput (str " entity")
      | none, none => []) ⊹
    (match loc with
      | some l => tput (str " at " ++ l.show)
      | none => []) ⊹
    tput [')']
  | _, .libLambda sg id => tput (str "{lambda") ⊹ txt .postfixUsage sg ⊹
    tput (['#'] ++ str (toString id) ++ ['}'])
  | _, .libUnnamed id => tput (str "{unnamed type#" ++ str (toString id) ++ ['}'])
  | _, .arith o =>
    wtxt (c = .declaration) (tput (str "operator")) ⊹
    (match o with
      | .deref _ => tput o.text
      | _ => wtxt (c = .binaryUsage) (tput [' ']) ⊹ tput o.text ⊹
          wtxt (c = .binaryUsage) (tput [' ']))
  | _, .callIndex isIndex =>
    wtxt (c = .declaration) (tput (str "operator")) ⊹
    tput (if isIndex then str "[]" else str "()")
  | _, .customLit id =>
    wtxt (c = .declaration) (tput (str "operator")) ⊹
    wtxt (c = .declaration) (tput (str "\"\" ")) ⊹ tput id
  | _, .newDelete isDelete array =>
    wtxt (c = .declaration) (tput (str "operator")) ⊹
    wtxt (c = .declaration) (tput [' ']) ⊹
    tput (if isDelete then str "delete" else str "new") ⊹
    wtxt array (tput (str "[]")) ⊹
    wtxt (c = .prefixUsage) (tput [' '])
  | _, .coAwait =>
    wtxt (c = .declaration) (tput (str "operator")) ⊹
    wtxt (c = .declaration) (tput [' ']) ⊹
    tput (str "co_await") ⊹
    wtxt (c = .prefixUsage) (tput [' '])
  | _, .conversion t =>
    wtxt (c = .declaration) (tput (str "operator")) ⊹
    wtxt (c = .declaration) (tput [' ']) ⊹
    wtxt (c = .prefixUsage) (tput ['(']) ⊹
    txt .postfixUsage t ⊹
    wtxt (c = .prefixUsage) (tput [')'])
  | _, .sig abi params variadic cv ref noexcept trailing =>
    (match abi with
      | some a => tput (str "[abi:" ++ a ++ [']'])
      | none => []) ⊹
    sliceTxt params (txt .postfixUsage params) ⊹
    wtxt variadic (tput (str ", ...")) ⊹
    tput [')'] ⊹
    wtxt (cv ≠ CV.none) (tput ([' '] ++ cv.show)) ⊹
    wtxt (ref ≠ Ref.none) (tput ([' '] ++ ref.show)) ⊹
    txt .postfixUsage noexcept ⊹
    (if trailing.isNone then [] else tput (str " -> ") ⊹ txt .postfixUsage trailing)
  | _, .dCv cv => tput ([' '] ++ cv.show)
  | _, .dPtr p cv restrict =>
    (if p.shown then tput [' '] ⊹ txt .postfixUsage p else []) ⊹
    tput ['*'] ⊹
    wtxt (cv ≠ CV.none) (tput ([' '] ++ cv.show)) ⊹
    wtxt restrict (tput (str " restrict"))
  | _, .dRef r => tput r.show
  | _, .dArr v => tput ['['] ⊹ txt .postfixUsage v ⊹ tput [']']
  | _, .dFun sg => txt .postfixUsage sg
  | _, .dParen d => tput (str " (") ⊹ sliceTxt d (txt .postfixUsage d) ⊹ tput [')']
  | _, .dVec v => tput (str " __vector(") ⊹ txt .postfixUsage v ⊹ tput [')']
  | _, .value h trailer => txt .postfixUsage h ⊹ sliceTxt trailer (txt .postfixUsage trailer)
  | _, .hLit l => tput l.show
  | _, .hParen v => tput ['('] ⊹ txt .postfixUsage v ⊹ tput [')']
  | _, .hUnary o v => txt .prefixUsage o ⊹ txt .postfixUsage v
  | _, .hNew n => txt .postfixUsage n
  | _, .hId i => txt .postfixUsage i
  | _, .hEllipsis => tput (str "...")
  | _, .hSizeOf t => tput (str "sizeof(") ⊹ txt .postfixUsage t ⊹ tput [')']
  | _, .hDeclVal t => tput (str "declval(") ⊹ txt .postfixUsage t ⊹ tput [')']
  | _, .aIndex v => tput ['['] ⊹ txt .postfixUsage v ⊹ tput [']']
  | _, .aCall args => sliceTxt args (txt .postfixUsage args)
  | _, .aBinary o v => txt .binaryUsage o ⊹ txt .postfixUsage v
  | _, .aTernary v w => tput (str " ? ") ⊹ txt .postfixUsage v ⊹ tput (str " : ") ⊹
    txt .postfixUsage w
  | _, .aMember u => tput ['.'] ⊹ txt .postfixUsage u
  | _, .aPostfix o => txt .postfixUsage o
  | _, .aEllipsis => tput (str "...")
  | _, .args l => sliceTxt l (txt .postfixUsage l)
  | _, .nxNone => []
  | _, .nxSome v => tput (str " noexcept") ⊹
    (if v.isNone then [] else tput ['('] ⊹ txt .postfixUsage v ⊹ tput [')'])
  | _, .newE rooted placement t constructor =>
    wtxt rooted (tput (str "::")) ⊹ tput (str "new") ⊹ txt .postfixUsage placement ⊹ tput [' '] ⊹
    txt .postfixUsage t ⊹ txt .postfixUsage constructor

/-! ## The display writes this text -/

/-- With enough budget, `w` writes `t`. -/
def Full (w : W) (t : List Char) : Prop := ∃ N : Nat, ∀ st : DSt, st.quota = none → (N : Int) ≤ st.budget →
  (w st).1 = true ∧ (w st).2.out = st.out ++ t ∧ (w st).2.quota = none ∧ (w st).2.budget = st.budget

theorem Full.done : Full done [] := ⟨0, fun st h _ => ⟨rfl, by simp [Cpp.done], h, rfl⟩⟩

theorem Full.put (t : List Char) : Full (put t) (tput t) := by
  rw [tput]; exact ⟨0, fun st h _ => by simp [Cpp.put, h]⟩

theorem Full.seq {a b : W} {t u : List Char} (ha : Full a t) (hb : Full b u) : Full (a ⨾ b) (t ⊹ u) := by
  obtain ⟨n, hn⟩ := ha
  obtain ⟨m, hm⟩ := hb
  refine ⟨max n m, fun st hq hb => ?_⟩
  obtain ⟨h1, h2, h3, h4⟩ := hn st hq (by omega)
  unfold W.seq
  rcases hst : a st with ⟨_ | _, st'⟩
  · rw [hst] at h1; cases h1
  · rw [hst] at h2 h3 h4
    obtain ⟨k1, k2, k3, k4⟩ := hm st' h3 (by simp only at h4; omega)
    refine ⟨k1, ?_, k3, k4.trans h4⟩
    rw [k2, h2, List.append_assoc, cat_eq]

theorem Full.ite {c : Prop} [Decidable c] {a b : W} {t u : List Char} (ha : Full a t) (hb : Full b u) :
    Full (if c then a else b) (if c then t else u) := by split <;> assumption

theorem Full.when {c : Bool} {a : W} {t : List Char} (ha : Full a t) : Full (W.when c a) (wtxt c t) :=
  by rw [wtxt]; exact Full.ite ha Full.done

theorem Full.guarded {a b : W} {t : List Char} (ha : Full a t) : Full (W.guarded a b) t := by
  obtain ⟨n, hn⟩ := ha
  refine ⟨n + 1, fun st hq hb => ?_⟩
  unfold W.guarded
  rw [if_pos (by omega)]
  obtain ⟨h1, h2, h3, h4⟩ := hn { st with budget := st.budget - 1, seen := st.seen ++ [st.budget - 1] } hq
    (by simp only; omega)
  rcases hst : a { st with budget := st.budget - 1, seen := st.seen ++ [st.budget - 1] } with ⟨ok, st2⟩
  rw [hst] at h1 h2 h3 h4
  simp only at h1 h2 h3 h4
  simp only [hst]
  exact ⟨h1, h2, h3, by omega⟩

theorem Full.ifCan {a b : W} {t : List Char} (ha : Full a t) : Full (W.ifCan a b) t := by
  obtain ⟨n, hn⟩ := ha
  refine ⟨n + 1, fun st hq hb => ?_⟩
  unfold W.ifCan
  rw [if_pos (by omega)]
  exact hn st hq (by omega)

theorem Full.slice {s : S} (l : Ast (.list s)) {items : W} {t : List Char} (h : Full items t) :
    Full (slice l items) (sliceTxt l t) :=
  Full.seq (Full.put _) (Full.seq (Full.guarded h) (Full.put _))

theorem full_clangOther (id : Option Ident) (loc : Option Loc) (c : Ctx) :
    Full (disp c (.clangOther id loc)) (txt c (.clangOther id loc)) := by
  simp only [disp, txt]
  refine Full.seq (Full.put _) (Full.seq ?_ (Full.seq ?_ (Full.put _)))
  · cases id <;> cases loc <;> first | exact Full.done | exact Full.put _
  · cases loc <;> first | exact Full.done | exact Full.put _

theorem full_arith (o : ArithOp) (c : Ctx) : Full (disp c (.arith o)) (txt c (.arith o)) := by
  simp only [disp, txt]
  refine Full.seq (Full.when (Full.put _)) ?_
  cases o <;> first | exact Full.put _ | exact Full.seq (Full.when (Full.put _)) (Full.seq (Full.put _) (Full.when (Full.put _)))

theorem full_sig {abi : Option Ident} {params : Ast (.list .ty)} {variadic : Bool} {cv : CV}
    {ref : Ref} {noexcept : Ast .noexc} {trailing : Ast (.opt .ty)}
    (ih1 : ∀ c, Full (disp c params) (txt c params)) (ih2 : ∀ c, Full (disp c noexcept) (txt c noexcept))
    (ih3 : ∀ c, Full (disp c trailing) (txt c trailing)) (c : Ctx) :
    Full (disp c (.sig abi params variadic cv ref noexcept trailing))
      (txt c (.sig abi params variadic cv ref noexcept trailing)) := by
  simp only [disp, txt]
  refine Full.seq ?_ (Full.seq (Full.slice _ (ih1 _)) (Full.seq (Full.ifCan (Full.when (Full.put _))) (Full.seq (Full.put _)
    (Full.seq (Full.when (Full.put _)) (Full.seq (Full.when (Full.put _)) (Full.seq (ih2 _) (Full.ite Full.done
      (Full.seq (Full.put _) (ih3 _)))))))))
  cases abi <;> first | exact Full.done | exact Full.put _

attribute [local irreducible] disp txt slice W.seq W.when put done W.guarded W.ifCan sliceTxt

/-- Every entity: with enough budget, the display writes the text. -/
theorem disp_full {s : S} (e : Ast s) : ∀ c, Full (disp c e) (txt c e) := by
  induction e
  case clangOther id loc => exact full_clangOther id loc
  case arith o => exact full_arith o
  case sig abi params variadic cv ref noexcept trailing ih1 ih2 ih3 => exact full_sig ih1 ih2 ih3
  all_goals
    intro c; simp only [disp, txt]
    repeat' (first
      | solve_by_elim only [*]
      | exact Full.done
      | exact Full.put _
      | apply Full.seq
      | apply Full.ite
      | apply Full.when
      | apply Full.guarded
      | apply Full.ifCan
      | apply Full.slice)

end Verif.Cpp
