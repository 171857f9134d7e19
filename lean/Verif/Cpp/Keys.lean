/-
C92: interned entities.

`EntityParser` (cpparser/src/lib.rs 101-135) does not return trees: types, values, identifiers, paths and
sequences are interned, and everything above them holds keys.  The parser model (Cpp/Grammar) returns trees; this file
models the storage, and shows that keys stand for trees.
-/
import Verif.Cpp.SpellingExample
import Verif.Intern.Rec
import Mathlib.Tactic.CasesM

set_option autoImplicit false
set_option linter.unusedVariables false
set_option linter.unusedSimpArgs false
set_option linter.unusedSectionVars false

namespace Verif.Cpp.Keys

open Verif.Intern

/-- The variant of an entity, with the fields that are neither entities, identifiers nor paths. -/
inductive L where
  | none | some | ty (cv : CV) | stId | stLegacy (n : LegacyName) | stAuto (n : Nat) | idExpr | path (rooted : Bool)
  | scope | named (destructor : Bool) | opId | decltype | anonId | tpList | tpVoid | tpTy | tpVal
  | clangLambda (line col : Nat) | clangOther | loc (line col : Nat) | libLambda (id : Nat) | libUnnamed (id : Nat)
  | arith (o : ArithOp) | callIndex (isIndex : Bool) | customLit | newDelete (isDelete array : Bool) | coAwait | conversion
  | sig (variadic : Bool) (cv : CV) (ref : Ref) | dCv (cv : CV) | dPtr (cv : CV) (restrict : Bool) | dRef (r : Ref) | dArr
  | dFun | dParen | dVec | value | hLit (v : LitVal) | hParen | hUnary | hNew | hId | hEllipsis | hSizeOf | hDeclVal
  | aIndex | aCall | aBinary | aTernary | aMember | aPostfix | aEllipsis | nxNone | nxSome | newE (rooted : Bool)
  deriving DecidableEq

/-- Interners of single items besides identifiers and paths: types and values (lib.rs 113-116). -/
inductive Box where
  | type | value
  deriving DecidableEq

/-- A tree, in which what gets interned is marked: identifiers, paths, types, values, sequences. -/
inductive T where
  | ident (i : Ident)
  | file (p : List Char)
  | leaf (l : L)
  | app (f x : T)
  | boxed (b : Box) (t : T)
  | seq (s : S) (t : T)
  | nil
  | cons (a l : T)

infixl:70 " ⬝ " => T.app

/-- An optional identifier. -/
def optIdent : Option Ident → T
  | Option.none => .leaf .none
  | Option.some i => .leaf .some ⬝ .ident i

/-- An optional source location (anonymous.rs 174-188). -/
def optLoc : Option Loc → T
  | Option.none => .leaf .none
  | Option.some l => .leaf (.loc l.line l.col) ⬝ .file l.file

/-- Fields of the entities, in the structures and enumerations cited at the constructors of `Ast`. -/
def shape : {s : S} → Ast s → T
  | _, .nil => .nil
  | _, .cons a l => .cons (shape a) (shape l)
  | _, .none => .leaf .none
  | _, .some a => .leaf .some ⬝ shape a
  | _, .ty attrs cv simple decl => .boxed .type (.leaf (.ty cv) ⬝ .seq .value (shape attrs) ⬝ shape simple ⬝ .seq .declop (shape decl))
  | _, .stId i => .leaf .stId ⬝ shape i
  | _, .stLegacy n => .leaf (.stLegacy n)
  | _, .stAuto n => .leaf (.stAuto n)
  | _, .idExpr p u => .leaf .idExpr ⬝ shape p ⬝ shape u
  | _, .path rooted l => .leaf (.path rooted) ⬝ .seq .scope (shape l)
  | _, .scope u sg => .leaf .scope ⬝ shape u ⬝ shape sg
  | _, .named d i tp => .leaf (.named d) ⬝ .ident i ⬝ shape tp
  | _, .opId o tp => .leaf .opId ⬝ shape o ⬝ shape tp
  | _, .decltype v => .leaf .decltype ⬝ shape v
  | _, .anonId a => .leaf .anonId ⬝ shape a
  | _, .tpList l => .leaf .tpList ⬝ .seq .tparam (shape l)
  | _, .tpVoid => .leaf .tpVoid
  | _, .tpTy t => .leaf .tpTy ⬝ shape t
  | _, .tpVal v => .leaf .tpVal ⬝ shape v
  | _, .clangLambda l => .leaf (.clangLambda l.line l.col) ⬝ .file l.file
  | _, .clangOther i l => .leaf .clangOther ⬝ optIdent i ⬝ optLoc l
  | _, .libLambda sg n => .leaf (.libLambda n) ⬝ shape sg
  | _, .libUnnamed n => .leaf (.libUnnamed n)
  | _, .arith o => .leaf (.arith o)
  | _, .callIndex b => .leaf (.callIndex b)
  | _, .customLit i => .leaf .customLit ⬝ .ident i
  | _, .newDelete d a => .leaf (.newDelete d a)
  | _, .coAwait => .leaf .coAwait
  | _, .conversion t => .leaf .conversion ⬝ shape t
  | _, .sig abi ps variadic cv ref nx tr =>
    .leaf (.sig variadic cv ref) ⬝ optIdent abi ⬝ .seq .ty (shape ps) ⬝ shape nx ⬝ shape tr
  | _, .dCv cv => .leaf (.dCv cv)
  | _, .dPtr p cv r => .leaf (.dPtr cv r) ⬝ shape p
  | _, .dRef r => .leaf (.dRef r)
  | _, .dArr v => .leaf .dArr ⬝ shape v
  | _, .dFun sg => .leaf .dFun ⬝ shape sg
  | _, .dParen d => .leaf .dParen ⬝ .seq .declop (shape d)
  | _, .dVec v => .leaf .dVec ⬝ shape v
  | _, .value h tr => .boxed .value (.leaf .value ⬝ shape h ⬝ .seq .after (shape tr))
  | _, .hLit l => .leaf (.hLit l.value) ⬝ optIdent l.suffix
  | _, .hParen v => .leaf .hParen ⬝ shape v
  | _, .hUnary o v => .leaf .hUnary ⬝ shape o ⬝ shape v
  | _, .hNew n => .leaf .hNew ⬝ shape n
  | _, .hId i => .leaf .hId ⬝ shape i
  | _, .hEllipsis => .leaf .hEllipsis
  | _, .hSizeOf t => .leaf .hSizeOf ⬝ shape t
  | _, .hDeclVal t => .leaf .hDeclVal ⬝ shape t
  | _, .aIndex v => .leaf .aIndex ⬝ shape v
  | _, .aCall l => .leaf .aCall ⬝ .seq .value (shape l)
  | _, .aBinary o v => .leaf .aBinary ⬝ shape o ⬝ shape v
  | _, .aTernary v w => .leaf .aTernary ⬝ shape v ⬝ shape w
  | _, .aMember u => .leaf .aMember ⬝ shape u
  | _, .aPostfix o => .leaf .aPostfix ⬝ shape o
  | _, .aEllipsis => .leaf .aEllipsis
  | _, .args l => .seq .value (shape l)
  | _, .nxNone => .leaf .nxNone
  | _, .nxSome v => .leaf .nxSome ⬝ shape v
  | _, .newE rooted p t c => .leaf (.newE rooted) ⬝ shape p ⬝ shape t ⬝ shape c

/-- The interners of `EntityParser` (lib.rs 101-135). -/
inductive Tbl where
  | idents | files | boxes (b : Box) | seqs (s : S)
  deriving DecidableEq

/-- What is stored and returned: fields inline, keys for what is interned. -/
inductive R where
  | key (t : Tbl) (k : Nat)
  | leaf (l : L)
  | app (f x : R)
  | nil
  | cons (a l : R)
  deriving DecidableEq

/-- The sequence of interned items. -/
def R.items : R → List R
  | .cons a l => a :: l.items
  | _ => []

def R.ofItems : List R → R
  | [] => .nil
  | a :: l => .cons a (R.ofItems l)

/-- Numbers of keys of `Spur` and `MiniSpur`. -/
def spur : Nat := 2 ^ 32 - 1
def miniSpur : Nat := 2 ^ 16 - 1

/-- Keys of sequences (functions.rs 38-53, values/mod.rs 48-50, templates.rs 29-32, names/scopes.rs 32-34,
types/declarators.rs 32-34). -/
def cfg : S → KeyCfg
  | .value => ⟨64, 6, miniSpur, by decide, by decide⟩
  | .after => ⟨64, 6, miniSpur, by decide, by decide⟩
  | .tparam => ⟨64, 10, spur, by decide, by decide⟩
  | _ => ⟨64, 8, spur, by decide, by decide⟩

/-- Number of keys of types and values (types/mod.rs 31, values/mod.rs 38). -/
def boxCap : Box → Nat
  | .type => spur
  | .value => miniSpur

/-- The interners of `EntityParser` (lib.rs 101-135).  `Rodeo` and `PathInterner` are interners like the others: see
C18 for what the latter does to paths. -/
structure Store where
  idents : Interner Ident
  files : Interner (List Char)
  boxes : Box → Interner R
  seqs : S → SeqInterner R

/-- `EntityParser::new` (lib.rs 139-153). -/
def Store.new : Store := ⟨.new, .new, fun _ => .new, fun _ => .new⟩

/-- Interning an entity, from its parts up. -/
def put : T → Store → Except Panic (R × Store)
  | .ident i, st =>
    match st.idents.intern miniSpur i with
    | .ok (k, x) => .ok (.key .idents k, { st with idents := x })
    | .error e => .error e
  | .file p, st =>
    match st.files.intern spur p with
    | .ok (k, x) => .ok (.key .files k, { st with files := x })
    | .error e => .error e
  | .leaf l, st => .ok (.leaf l, st)
  | .app f x, st =>
    match put f st with
    | .error e => .error e
    | .ok (rf, st1) =>
      match put x st1 with
      | .error e => .error e
      | .ok (rx, st2) => .ok (.app rf rx, st2)
  | .boxed b t, st =>
    match put t st with
    | .error e => .error e
    | .ok (r, st1) =>
      match (st1.boxes b).intern (boxCap b) r with
      | .error e => .error e
      | .ok (k, x) => .ok (.key (.boxes b) k, { st1 with boxes := Function.update st1.boxes b x })
  | .seq s t, st =>
    match put t st with
    | .error e => .error e
    | .ok (r, st1) =>
      match (st1.seqs s).intern (cfg s) r.items with
      | .error e => .error e
      | .ok (k, x) => .ok (.key (.seqs s) k, { st1 with seqs := Function.update st1.seqs s x })
  | .nil, st => .ok (.nil, st)
  | .cons a l, st =>
    match put a st with
    | .error e => .error e
    | .ok (ra, st1) =>
      match put l st1 with
      | .error e => .error e
      | .ok (rl, st2) => .ok (.cons ra rl, st2)

/-- What one reads in the storage, following the keys as the views do (`TypeView`, `ValueView`, `SliceView`, ...). -/
inductive Reads (st : Store) : R → T → Prop where
  | ident {k : Nat} {i : Ident} : st.idents.get k = some i → Reads st (.key .idents k) (.ident i)
  | file {k : Nat} {p : List Char} : st.files.get k = some p → Reads st (.key .files k) (.file p)
  | leaf (l : L) : Reads st (.leaf l) (.leaf l)
  | app {f x : R} {tf tx : T} : Reads st f tf → Reads st x tx → Reads st (.app f x) (.app tf tx)
  | boxed {b : Box} {k : Nat} {r : R} {t : T} : (st.boxes b).get k = some r → Reads st r t →
      Reads st (.key (.boxes b) k) (.boxed b t)
  | seq {s : S} {k : Nat} {q : List R} {t : T} : k ∈ (st.seqs s).sequences → (st.seqs s).get (cfg s) k = some q →
      Reads st (R.ofItems q) t → Reads st (.key (.seqs s) k) (.seq s t)
  | nil : Reads st .nil .nil
  | cons {a l : R} {ta tl : T} : Reads st a ta → Reads st l tl → Reads st (.cons a l) (.cons ta tl)

theorem optIdent_inj : ∀ {a b : Option Ident}, optIdent a = optIdent b → a = b
  | Option.none, Option.none, _ => rfl
  | Option.none, Option.some _, h => by simp [optIdent] at h
  | Option.some _, Option.none, h => by simp [optIdent] at h
  | Option.some _, Option.some _, h => by simpa [optIdent] using h

theorem optLoc_inj : ∀ {a b : Option Loc}, optLoc a = optLoc b → a = b
  | Option.none, Option.none, _ => rfl
  | Option.none, Option.some _, h => by simp [optLoc] at h
  | Option.some _, Option.none, h => by simp [optLoc] at h
  | Option.some ⟨f, l, c⟩, Option.some ⟨f', l', c'⟩, h => by
    simp [optLoc] at h
    obtain ⟨⟨rfl, rfl⟩, rfl⟩ := h
    rfl

theorem lit_inj {l l' : Literal} (h : l.value = l'.value) (h' : optIdent l.suffix = optIdent l'.suffix) : l = l' := by
  cases l; cases l'
  cases h
  cases optIdent_inj h'
  rfl

theorem shape_inj : ∀ {s : S} {a b : Ast s}, shape a = shape b → a = b := by
  intro s a
  induction a <;> intro b h <;> cases b <;>
    simp only [shape, T.app.injEq, T.leaf.injEq, T.boxed.injEq, T.seq.injEq, T.cons.injEq, T.ident.injEq, T.file.injEq,
      L.ty.injEq, reduceCtorEq, and_false, false_and, true_and, and_true, L.stLegacy.injEq, L.stAuto.injEq,
      L.path.injEq, L.named.injEq, L.clangLambda.injEq, L.loc.injEq, L.libLambda.injEq, L.libUnnamed.injEq,
      L.arith.injEq, L.callIndex.injEq, L.newDelete.injEq, L.sig.injEq, L.dCv.injEq, L.dPtr.injEq, L.dRef.injEq,
      L.hLit.injEq, L.newE.injEq, and_assoc] at h
  all_goals first
    | rfl
    | (subst h; rfl)
    | (congr 1; solve_by_elim)
    | (casesm* _ ∧ _
       congr 1 <;> first | assumption | solve_by_elim [optIdent_inj, optLoc_inj])
    | (rw [lit_inj h.1 h.2])
    | (rename_i l1 l2
       obtain ⟨f, l, c⟩ := l1
       obtain ⟨f', l', c'⟩ := l2
       obtain ⟨rfl, rfl, rfl⟩ := h
       rfl)

/-! ### Sequences -/

/-- A sequence of items. -/
def T.Chain : T → Prop
  | .nil => True
  | .cons _ l => l.Chain
  | _ => False

/-- What is interned as a sequence is one. -/
def T.Ok : T → Prop
  | .app f x => f.Ok ∧ x.Ok
  | .boxed _ t => t.Ok
  | .seq _ t => t.Chain ∧ t.Ok
  | .cons a l => a.Ok ∧ l.Ok
  | _ => True

theorem shape_chain : ∀ {s : S} (a : Ast s) {s' : S}, s = .list s' → (shape a).Chain := by
  intro s a
  induction a with
  | nil => intro _ _; trivial
  | cons a l _ ih => intro _ _; exact ih rfl
  | _ => intro s' h; exact absurd h (by simp)

theorem optIdent_ok (i : Option Ident) : (optIdent i).Ok := by cases i <;> simp [optIdent, T.Ok]
theorem optLoc_ok (i : Option Loc) : (optLoc i).Ok := by cases i <;> simp [optLoc, T.Ok]

theorem shape_ok : ∀ {s : S} (a : Ast s), (shape a).Ok := by
  intro s a
  induction a <;> simp only [shape, T.Ok, true_and, and_true, optIdent_ok, optLoc_ok] <;>
    first
      | trivial
      | assumption
      | (refine ⟨?_, ?_⟩ <;> first | assumption | exact shape_chain _ rfl)
      | (simp_all only [true_and, and_true]; first | done | exact shape_chain _ rfl |
          exact ⟨shape_chain _ rfl, shape_chain _ rfl⟩)

theorem ofItems_inj : ∀ {q q' : List R}, R.ofItems q = R.ofItems q' → q = q'
  | [], [], _ => rfl
  | [], _ :: _, h => by simp [R.ofItems] at h
  | _ :: _, [], h => by simp [R.ofItems] at h
  | _ :: _, _ :: _, h => by
    simp only [R.ofItems, R.cons.injEq] at h
    rw [h.1, ofItems_inj h.2]

/-! ### Stores -/

/-- The storage is sound; `Q s` are the sequences of sort `s` it holds. -/
structure Good (st : Store) (Q : S → List (List R)) : Prop where
  idents : st.idents.WF
  files : st.files.WF
  boxes : ∀ b, (st.boxes b).WF
  seqs : ∀ s, Rep (cfg s) (st.seqs s) (Q s)

/-- One storage extends another. -/
structure Le (st : Store) (Q : S → List (List R)) (st' : Store) (Q' : S → List (List R)) : Prop where
  idents : st.idents.items <+: st'.idents.items
  files : st.files.items <+: st'.files.items
  boxes : ∀ b, (st.boxes b).items <+: (st'.boxes b).items
  seqs : ∀ s, Q s <+: Q' s

theorem Le.refl (st : Store) (Q : S → List (List R)) : Le st Q st Q :=
  ⟨List.prefix_rfl, List.prefix_rfl, fun _ => List.prefix_rfl, fun _ => List.prefix_rfl⟩

theorem Le.trans {a b c : Store} {qa qb qc : S → List (List R)} (h : Le a qa b qb) (h' : Le b qb c qc) : Le a qa c qc :=
  ⟨h.idents.trans h'.idents, h.files.trans h'.files, fun x => (h.boxes x).trans (h'.boxes x),
    fun x => (h.seqs x).trans (h'.seqs x)⟩

theorem Good.new : Good Store.new fun _ => [] :=
  ⟨Interner.WF.new, Interner.WF.new, fun _ => Interner.WF.new, fun _ => Rep.new _⟩

theorem get_mono {α : Type} [DecidableEq α] {s s' : Interner α} (h : s.items <+: s'.items) {k : Nat} {x : α}
    (hk : s.get k = some x) : s'.get k = some x := by
  obtain ⟨t, ht⟩ := h
  unfold Interner.get at *
  rw [← ht, List.getElem?_append_left, hk]
  by_contra hc
  rw [List.getElem?_eq_none (by omega)] at hk; cases hk

theorem get_inj {α : Type} [DecidableEq α] {s : Interner α} (h : s.WF) {k k' : Nat} {x : α}
    (hk : s.get k = some x) (hk' : s.get k' = some x) : k = k' := by
  unfold Interner.get at *
  have hi : k < s.items.length := by
    by_contra hc
    rw [List.getElem?_eq_none (by omega)] at hk; cases hk
  exact (List.getElem?_inj hi h.nodup).1 (hk.trans hk'.symm)

theorem seq_get {α : Type} [DecidableEq α] {c : KeyCfg} {s : SeqInterner α} {qs : List (List α)} (h : Rep c s qs)
    {k i : Nat} {q : List α} (hk : s.sequences[i]? = some k) (hq : qs[i]? = some q) : s.get c k = some q := by
  have := keysOf_slice c qs h.short [] []
  simp only [List.nil_append, List.length_nil, List.append_nil] at this
  rw [h.keys] at hk
  have h1 := congrArg (fun l => l[i]?) this
  simpa [hk, hq, SeqInterner.get, h.cat] using h1

theorem seq_idx {α : Type} [DecidableEq α] {c : KeyCfg} {s : SeqInterner α} {qs : List (List α)} (h : Rep c s qs)
    {k : Nat} {q : List α} (hm : k ∈ s.sequences) (hk : s.get c k = some q) :
    ∃ i : Nat, s.sequences[i]? = some k ∧ qs[i]? = some q := by
  obtain ⟨i, hi, he⟩ := List.getElem_of_mem hm
  have hi' : i < qs.length := by rw [h.keys, keysOf_length] at hi; exact hi
  have h1 : s.sequences[i]? = some k := by rw [List.getElem?_eq_getElem hi, he]
  have h2 : qs[i]? = some qs[i] := List.getElem?_eq_getElem hi'
  have := seq_get h h1 h2
  rw [hk] at this
  exact ⟨i, h1, by rw [h2, this]⟩

theorem reads_functional {st : Store} {r : R} {t t' : T} (h : Reads st r t) (h' : Reads st r t') : t = t' := by
  induction h generalizing t' with
  | ident hk => cases h' with | ident hk' => rw [hk] at hk'; cases hk'; rfl
  | file hk => cases h' with | file hk' => rw [hk] at hk'; cases hk'; rfl
  | leaf => cases h'; rfl
  | app _ _ ih ih' => cases h' with | app a b => rw [ih a, ih' b]
  | boxed hk _ ih =>
    cases h' with
    | boxed hk' a => rw [hk] at hk'; cases hk'; rw [ih a]
  | seq _ hk _ ih =>
    cases h' with
    | seq _ hk' a => rw [hk] at hk'; cases hk'; rw [ih a]
  | nil => cases h'; rfl
  | cons _ _ ih ih' => cases h' with | cons a b => rw [ih a, ih' b]

theorem reads_injective {st : Store} {Q : S → List (List R)} (g : Good st Q) {r r' : R} {t : T} (h : Reads st r t)
    (h' : Reads st r' t) : r = r' := by
  induction h generalizing r' with
  | ident hk => cases h' with | ident hk' => rw [get_inj g.idents hk hk']
  | file hk => cases h' with | file hk' => rw [get_inj g.files hk hk']
  | leaf => cases h'; rfl
  | app _ _ ih ih' => cases h' with | app a b => rw [ih a, ih' b]
  | boxed hk _ ih =>
    cases h' with
    | boxed hk' a => rw [← ih a] at hk'; rw [get_inj (g.boxes _) hk hk']
  | @seq s k q t hm hk _ ih =>
    cases h' with
    | @seq _ k' q' _ hm' hk' a =>
      obtain rfl := ofItems_inj (ih a)
      obtain ⟨i, h1, h2⟩ := seq_idx (g.seqs s) hm hk
      obtain ⟨j, h3, h4⟩ := seq_idx (g.seqs s) hm' hk'
      rw [(g.seqs s).keys] at h1 h3
      rw [(keysOf_nodup (cfg s) (Q s) (g.seqs s).short (g.seqs s).nodup [] i j k k' q q h1 h3 h2 h4).2 rfl]
  | nil => cases h'; rfl
  | cons _ _ ih ih' => cases h' with | cons a b => rw [ih a, ih' b]

theorem reads_mono {st st' : Store} {Q Q' : S → List (List R)} (g : Good st Q) (g' : Good st' Q') (l : Le st Q st' Q')
    {r : R} {t : T} (h : Reads st r t) : Reads st' r t := by
  induction h with
  | ident hk => exact .ident (get_mono l.idents hk)
  | file hk => exact .file (get_mono l.files hk)
  | leaf l => exact .leaf l
  | app _ _ ih ih' => exact .app ih ih'
  | boxed hk _ ih => exact .boxed (get_mono (l.boxes _) hk) ih
  | @seq s k q t hm hk _ ih =>
    obtain ⟨i, h1, h2⟩ := seq_idx (g.seqs s) hm hk
    obtain ⟨h3, h4⟩ := idx_mono (g.seqs s) (g'.seqs s) (l.seqs s) h1 h2
    exact .seq (List.mem_of_getElem? h3) (seq_get (g'.seqs s) h3 h4) ih
  | nil => exact .nil
  | cons _ _ ih ih' => exact .cons ih ih'

theorem ofItems_items {st : Store} {r : R} {t : T} (h : Reads st r t) (hc : t.Chain) : R.ofItems r.items = r := by
  induction h with
  | nil => rfl
  | cons _ _ _ ih' => simp only [R.items, R.ofItems, ih' hc]
  | _ => exact absurd hc (by simp [T.Chain])

theorem put_spec : ∀ (t : T), t.Ok → ∀ {st : Store} {Q : S → List (List R)}, Good st Q →
    (∃ r st' Q', put t st = .ok (r, st') ∧ Good st' Q' ∧ Le st Q st' Q' ∧ Reads st' r t) ∨
    put t st = .error .keySpace := by
  intro t
  induction t with
  | ident i =>
    intro _ st Q g
    rcases Interner.intern_spec (cap := miniSpur) g.idents i with ⟨hm, k, he, hk⟩ | ⟨hm, -, x, he, hx, hw⟩ | ⟨-, -, he⟩
    · left
      refine ⟨.key .idents k, st, Q, by simp [put, he], g, Le.refl _ _, .ident hk⟩
    · left
      refine ⟨.key .idents st.idents.items.length, { st with idents := x }, Q, by simp [put, he],
        ⟨hw, g.files, g.boxes, g.seqs⟩, ⟨by simp [hx], List.prefix_rfl, fun _ => List.prefix_rfl, fun _ => List.prefix_rfl⟩,
        .ident (by simp [Interner.get, hx])⟩
    · right
      simp [put, he]
  | file i =>
    intro _ st Q g
    rcases Interner.intern_spec (cap := spur) g.files i with ⟨hm, k, he, hk⟩ | ⟨hm, -, x, he, hx, hw⟩ | ⟨-, -, he⟩
    · left
      refine ⟨.key .files k, st, Q, by simp [put, he], g, Le.refl _ _, .file hk⟩
    · left
      refine ⟨.key .files st.files.items.length, { st with files := x }, Q, by simp [put, he],
        ⟨g.idents, hw, g.boxes, g.seqs⟩, ⟨List.prefix_rfl, by simp [hx], fun _ => List.prefix_rfl, fun _ => List.prefix_rfl⟩,
        .file (by simp [Interner.get, hx])⟩
    · right
      simp [put, he]
  | leaf l => intro _ st Q g; exact Or.inl ⟨.leaf l, st, Q, rfl, g, Le.refl _ _, .leaf l⟩
  | nil => intro _ st Q g; exact Or.inl ⟨.nil, st, Q, rfl, g, Le.refl _ _, .nil⟩
  | app f x ihf ihx =>
    intro ok st Q g
    rcases ihf ok.1 g with ⟨rf, s1, Q1, e1, g1, l1, r1⟩ | e1
    · rcases ihx ok.2 g1 with ⟨rx, s2, Q2, e2, g2, l2, r2⟩ | e2
      · exact Or.inl ⟨.app rf rx, s2, Q2, by simp [put, e1, e2], g2, l1.trans l2, .app (reads_mono g1 g2 l2 r1) r2⟩
      · right; simp [put, e1, e2]
    · right; simp [put, e1]
  | cons f x ihf ihx =>
    intro ok st Q g
    rcases ihf ok.1 g with ⟨rf, s1, Q1, e1, g1, l1, r1⟩ | e1
    · rcases ihx ok.2 g1 with ⟨rx, s2, Q2, e2, g2, l2, r2⟩ | e2
      · exact Or.inl ⟨.cons rf rx, s2, Q2, by simp [put, e1, e2], g2, l1.trans l2, .cons (reads_mono g1 g2 l2 r1) r2⟩
      · right; simp [put, e1, e2]
    · right; simp [put, e1]
  | boxed b t ih =>
    intro ok st Q g
    rcases ih ok g with ⟨r, s1, Q1, e1, g1, l1, r1⟩ | e1
    · rcases Interner.intern_spec (cap := boxCap b) (g1.boxes b) r with
        ⟨hm, k, he, hk⟩ | ⟨hm, -, x, he, hx, hw⟩ | ⟨-, -, he⟩
      · left
        refine ⟨.key (.boxes b) k, s1, Q1, by simp [put, e1, he], g1, l1, .boxed hk r1⟩
      · left
        have g2 : Good { s1 with boxes := Function.update s1.boxes b x } Q1 := by
          refine ⟨g1.idents, g1.files, fun b' => ?_, g1.seqs⟩
          by_cases hb : b' = b
          · subst hb; simpa using hw
          · simpa [Function.update_of_ne hb] using g1.boxes b'
        have l2 : Le s1 Q1 { s1 with boxes := Function.update s1.boxes b x } Q1 := by
          refine ⟨List.prefix_rfl, List.prefix_rfl, fun b' => ?_, fun _ => List.prefix_rfl⟩
          by_cases hb : b' = b
          · subst hb; simp [hx]
          · simp [Function.update_of_ne hb]
        exact ⟨.key (.boxes b) (s1.boxes b).items.length, { s1 with boxes := Function.update s1.boxes b x }, Q1,
          by simp [put, e1, he], g2, l1.trans l2, .boxed (r := r) (by simp [Interner.get, hx]) (reads_mono g1 g2 l2 r1)⟩
      · right; simp [put, e1, he]
    · right; simp [put, e1]
  | seq s t ih =>
    intro ok st Q g
    rcases ih ok.2 g with ⟨r, s1, Q1, e1, g1, l1, r1⟩ | e1
    · rcases intern_rep (g1.seqs s) r.items with ⟨k, x, qs', he, hr, hp, i, hk, hq⟩ | he
      · left
        have g2 : Good { s1 with seqs := Function.update s1.seqs s x } (Function.update Q1 s qs') := by
          refine ⟨g1.idents, g1.files, g1.boxes, fun b' => ?_⟩
          by_cases hb : b' = s
          · subst hb; simpa using hr
          · simpa [Function.update_of_ne hb] using g1.seqs b'
        have l2 : Le s1 Q1 { s1 with seqs := Function.update s1.seqs s x } (Function.update Q1 s qs') := by
          refine ⟨List.prefix_rfl, List.prefix_rfl, fun _ => List.prefix_rfl, fun b' => ?_⟩
          by_cases hb : b' = s
          · subst hb; simpa using hp
          · simp [Function.update_of_ne hb]
        refine ⟨.key (.seqs s) k, { s1 with seqs := Function.update s1.seqs s x }, Function.update Q1 s qs',
          by simp [put, e1, he], g2, l1.trans l2, ?_⟩
        refine .seq (q := r.items) ?_ ?_ ?_
        · simpa using List.mem_of_getElem? hk
        · simpa using seq_get hr hk hq
        · rw [ofItems_items r1 ok.1]
          exact reads_mono g1 g2 l2 r1
      · right; simp [put, e1, he]
    · right; simp [put, e1]

/-! ### Histories -/

/-- An entity of any sort. -/
abbrev Any := Σ s : S, Ast s

/-- Interning entities one after the other. -/
def putAll : List Any → Store → Except Panic (List R × Store)
  | [], st => .ok ([], st)
  | a :: l, st =>
    match put (shape a.2) st with
    | .error e => .error e
    | .ok (r, st1) =>
      match putAll l st1 with
      | .error e => .error e
      | .ok (rs, st2) => .ok (r :: rs, st2)

theorem putAll_spec : ∀ (l : List Any) {st : Store} {Q : S → List (List R)}, Good st Q →
    (∃ rs st' Q', putAll l st = .ok (rs, st') ∧ Good st' Q' ∧ Le st Q st' Q' ∧ rs.length = l.length ∧
      ∀ (i : Nat) (a : Any) (r : R), l[i]? = some a → rs[i]? = some r → Reads st' r (shape a.2)) ∨
    putAll l st = .error .keySpace
  | [], st, Q, g => Or.inl ⟨[], st, Q, rfl, g, Le.refl _ _, rfl, by simp⟩
  | a :: l, st, Q, g => by
    rcases put_spec _ (shape_ok a.2) g with ⟨r, s1, Q1, e1, g1, l1, r1⟩ | e1
    · rcases putAll_spec l g1 with ⟨rs, s2, Q2, e2, g2, l2, hl, h2⟩ | e2
      · left
        refine ⟨r :: rs, s2, Q2, by simp [putAll, e1, e2], g2, l1.trans l2, by simp [hl], ?_⟩
        intro i b r' hb hr
        cases i with
        | zero =>
          simp at hb hr
          subst hb; subst hr
          exact reads_mono g1 g2 l2 r1
        | succ i => exact h2 i b r' (by simpa using hb) (by simpa using hr)
      · right; simp [putAll, e1, e2]
    · right; simp [putAll, e1]

theorem putAll_append : ∀ (l l' : List Any) (st : Store), putAll (l ++ l') st =
    match putAll l st with
    | .error e => .error e
    | .ok (rs, st1) =>
      match putAll l' st1 with
      | .error e => .error e
      | .ok (rs', st2) => .ok (rs ++ rs', st2)
  | [], l', st => by
    simp only [putAll, List.nil_append]
    cases putAll l' st with
    | error e => rfl
    | ok p => obtain ⟨rs, s⟩ := p; rfl
  | a :: l, l', st => by
    simp only [putAll, List.cons_append]
    cases put (shape a.2) st with
    | error e => rfl
    | ok p =>
      obtain ⟨r, s1⟩ := p
      simp only
      rw [putAll_append l l' s1]
      cases putAll l s1 with
      | error e => rfl
      | ok p =>
        obtain ⟨rs, s2⟩ := p
        simp only
        cases putAll l' s2 with
        | error e => rfl
        | ok p => obtain ⟨rs', s3⟩ := p; rfl

/-- **C92.** In any history of interned entities, two entities get the same key exactly when they are the same entity. -/
theorem c92_keys_iff {l : List Any} {rs : List R} {st : Store} (h : putAll l Store.new = .ok (rs, st)) {s : S}
    {a b : Ast s} {i j : Nat} {r r' : R} (ha : l[i]? = some ⟨s, a⟩) (hb : l[j]? = some ⟨s, b⟩) (hr : rs[i]? = some r)
    (hr' : rs[j]? = some r') : r = r' ↔ a = b := by
  rcases putAll_spec l Good.new with ⟨rs', st', Q', e, g, -, -, hh⟩ | e
  · rw [h] at e
    cases e
    have h1 := hh i _ r ha hr
    have h2 := hh j _ r' hb hr'
    constructor
    · rintro rfl
      exact shape_inj (reads_functional h1 h2)
    · rintro rfl
      exact reads_injective g h1 h2
  · rw [h] at e; cases e

/-- **C92.** A key reads as the entity that was interned, and nothing else, whatever is interned later. -/
theorem c92_reads {l l' : List Any} {rs : List R} {st : Store} (h : putAll (l ++ l') Store.new = .ok (rs, st)) {s : S}
    {a : Ast s} {i : Nat} (ha : l[i]? = some ⟨s, a⟩) : ∃ rs₀ st₀ r, putAll l Store.new = .ok (rs₀, st₀) ∧
      rs₀[i]? = some r ∧ (∀ b : Ast s, Reads st₀ r (shape b) ↔ b = a) ∧ ∀ b : Ast s, Reads st r (shape b) ↔ b = a := by
  have hi : i < l.length := by
    by_contra hc
    rw [List.getElem?_eq_none (by omega)] at ha; cases ha
  rcases putAll_spec l Good.new with ⟨rs₀, st₀, Q₀, e, g, -, hl, hh⟩ | e
  · rcases putAll_spec l' g with ⟨rs₁, st₁, Q₁, e1, g1, le1, -, -⟩ | e1
    · rw [putAll_append, e] at h
      simp only [e1] at h
      cases h
      obtain ⟨r, hr⟩ : ∃ r, rs₀[i]? = some r := ⟨rs₀[i], List.getElem?_eq_getElem (by omega)⟩
      have h1 := hh i _ r ha hr
      have h2 := reads_mono g g1 le1 h1
      exact ⟨rs₀, st₀, r, e, hr,
        fun b => ⟨fun hb => shape_inj (reads_functional hb h1), fun hb => hb ▸ h1⟩,
        fun b => ⟨fun hb => shape_inj (reads_functional hb h2), fun hb => hb ▸ h2⟩⟩
    · rw [putAll_append, e] at h
      simp only [e1] at h
      cases h
  · rw [putAll_append, e] at h
    cases h

/-- **C92.** The only thing that can go wrong is running out of keys. -/
theorem c92_only_exhaustion (l : List Any) :
    (∃ rs st, putAll l Store.new = .ok (rs, st) ∧ rs.length = l.length) ∨ putAll l Store.new = .error .keySpace := by
  rcases putAll_spec l Good.new with ⟨rs, st, _, e, -, -, hl, -⟩ | e
  · exact Or.inl ⟨rs, st, e, hl⟩
  · exact Or.inr e

/-! ### Room -/

/-- Length of a sequence. -/
def T.len : T → Nat
  | .cons _ l => l.len + 1
  | _ => 0

/-- Number of parts, those in sequences being counted once more. -/
def T.size : T → Nat
  | .app f x => f.size + x.size
  | .boxed _ t => t.size + 1
  | .seq _ t => t.size + t.len + 1
  | .cons a l => a.size + l.size + 1
  | _ => 1

/-- Sequences of less than 64 items. -/
def T.Short : T → Prop
  | .app f x => f.Short ∧ x.Short
  | .boxed _ t => t.Short
  | .seq _ t => t.len < 64 ∧ t.Short
  | .cons a l => a.Short ∧ l.Short
  | _ => True

/-- No table holds more than `n` items. -/
structure AtMost (st : Store) (n : Nat) : Prop where
  idents : st.idents.items.length ≤ n
  files : st.files.items.length ≤ n
  boxes : ∀ b, (st.boxes b).items.length ≤ n
  seqs : ∀ s, (st.seqs s).concatenated.length ≤ n

theorem AtMost.mono {st : Store} {n m : Nat} (h : AtMost st n) (hm : n ≤ m) : AtMost st m :=
  ⟨h.idents.trans hm, h.files.trans hm, fun b => (h.boxes b).trans hm, fun s => (h.seqs s).trans hm⟩

theorem intern_atMost {α : Type} [DecidableEq α] {cap n : Nat} {s : Interner α} (h : s.WF) (x : α) (hn : s.items.length ≤ n)
    (hc : n < cap) : ∃ k s', s.intern cap x = .ok (k, s') ∧ s'.items.length ≤ n + 1 := by
  rcases Interner.intern_spec (cap := cap) h x with ⟨-, k, he, -⟩ | ⟨-, -, s', he, hx, -⟩ | ⟨-, hn', -⟩
  · exact ⟨k, s, he, by omega⟩
  · exact ⟨_, s', he, by simp [hx]; omega⟩
  · omega

theorem cfg_fits (s : S) {start len : Nat} (h : start < 1023) (hl : len < 64) :
    Intern.Fits (cfg s) start (start + len) := by
  have e : start + len - start = len := by omega
  unfold Intern.Fits
  rw [e]
  have : (cfg s = ⟨64, 6, miniSpur, by decide, by decide⟩ ∨ cfg s = ⟨64, 10, spur, by decide, by decide⟩) ∨
      cfg s = ⟨64, 8, spur, by decide, by decide⟩ := by
    cases s <;> simp [cfg]
  rcases this with (h' | h') | h' <;> rw [h'] <;> simp only [miniSpur, spur] <;> norm_num <;> omega

theorem seq_atMost {s : S} {x : SeqInterner R} {qs : List (List R)} {n : Nat} (h : Rep (cfg s) x qs) (q : List R)
    (hn : x.concatenated.length ≤ n) (hq : q.length < 64) (hc : n < 1023) :
    ∃ k x', x.intern (cfg s) q = .ok (k, x') ∧ x'.concatenated.length ≤ n + q.length := by
  have hf := cfg_fits s (start := x.concatenated.length) (len := q.length) (by omega) hq
  obtain ⟨-, -, hp⟩ := step_spec h (.intern q)
  obtain ⟨k, hk⟩ := ((hp q rfl).1).2 (Or.inl hf)
  cases hi : x.intern (cfg s) q with
  | error e => simp [SeqInterner.step, hi] at hk
  | ok p =>
    obtain ⟨k', x'⟩ := p
    refine ⟨k', x', rfl, ?_⟩
    unfold SeqInterner.intern at hi
    split at hi
    · cases hi
    · cases hi; omega
    · dsimp only at hi
      split at hi
      · cases hi
      · cases hi
        simp
        omega

theorem items_len {st : Store} {r : R} {t : T} (h : Reads st r t) (hc : t.Chain) : r.items.length = t.len := by
  induction h with
  | nil => rfl
  | cons _ _ _ ih' => simp only [R.items, T.len, List.length_cons, ih' hc]
  | _ => exact absurd hc (by simp [T.Chain])

theorem put_room : ∀ (t : T), t.Ok → t.Short → ∀ {st : Store} {Q : S → List (List R)} {n : Nat}, Good st Q → AtMost st n →
    n + t.size ≤ 1023 → ∃ r st', put t st = .ok (r, st') ∧ AtMost st' (n + t.size) := by
  intro t
  induction t with
  | ident i =>
    intro _ _ st Q n g m hn
    simp only [T.size] at hn
    obtain ⟨k, x, he, hx⟩ := intern_atMost (cap := miniSpur) g.idents i m.idents (by simp only [miniSpur]; norm_num; omega)
    exact ⟨.key .idents k, { st with idents := x }, by simp [put, he], ⟨by simp only [T.size]; omega, m.files.trans (by omega), fun b => (m.boxes b).trans (by omega),
      fun b => (m.seqs b).trans (by omega)⟩⟩
  | file i =>
    intro _ _ st Q n g m hn
    simp only [T.size] at hn
    obtain ⟨k, x, he, hx⟩ := intern_atMost (cap := spur) g.files i m.files (by simp only [spur]; norm_num; omega)
    exact ⟨.key .files k, { st with files := x }, by simp [put, he], ⟨m.idents.trans (by omega), by simp only [T.size]; omega, fun b => (m.boxes b).trans (by omega),
      fun b => (m.seqs b).trans (by omega)⟩⟩
  | leaf l => intro _ _ st Q n g m hn; exact ⟨_, _, rfl, m.mono (by omega)⟩
  | nil => intro _ _ st Q n g m hn; exact ⟨_, _, rfl, m.mono (by omega)⟩
  | app f x ihf ihx =>
    intro ok sh st Q n g m hn
    simp only [T.size] at hn
    obtain ⟨r, s1, e1, m1⟩ := ihf ok.1 sh.1 g m (by omega)
    rcases put_spec f ok.1 g with ⟨_, _, Q1, e1', g1, -, -⟩ | e1'
    · rw [e1] at e1'; cases e1'
      obtain ⟨r', s2, e2, m2⟩ := ihx ok.2 sh.2 g1 m1 (by omega)
      exact ⟨.app r r', s2, by simp [put, e1, e2], m2.mono (by simp only [T.size]; omega)⟩
    · rw [e1] at e1'; cases e1'
  | cons f x ihf ihx =>
    intro ok sh st Q n g m hn
    simp only [T.size] at hn
    obtain ⟨r, s1, e1, m1⟩ := ihf ok.1 sh.1 g m (by omega)
    rcases put_spec f ok.1 g with ⟨_, _, Q1, e1', g1, -, -⟩ | e1'
    · rw [e1] at e1'; cases e1'
      obtain ⟨r', s2, e2, m2⟩ := ihx ok.2 sh.2 g1 m1 (by omega)
      exact ⟨.cons r r', s2, by simp [put, e1, e2], m2.mono (by simp only [T.size]; omega)⟩
    · rw [e1] at e1'; cases e1'
  | boxed b t ih =>
    intro ok sh st Q n g m hn
    simp only [T.size] at hn
    obtain ⟨r, s1, e1, m1⟩ := ih ok sh g m (by omega)
    rcases put_spec t ok g with ⟨_, _, Q1, e1', g1, -, -⟩ | e1'
    · rw [e1] at e1'; cases e1'
      obtain ⟨k, x, he, hx⟩ := intern_atMost (cap := boxCap b) (g1.boxes b) r (m1.boxes b)
        (by cases b <;> simp only [boxCap, spur, miniSpur] <;> norm_num <;> omega)
      refine ⟨.key (.boxes b) k, { s1 with boxes := Function.update s1.boxes b x }, by simp [put, e1, he], ?_⟩
      refine ⟨m1.idents.trans ?_, m1.files.trans ?_, fun b' => ?_, fun b => (m1.seqs b).trans ?_⟩
      · simp only [T.size]; omega
      · simp only [T.size]; omega
      · by_cases hb : b' = b
        · subst hb; simp only [Function.update_self, T.size]; omega
        · have := m1.boxes b'
          simp only [Function.update_of_ne hb, T.size]; omega
      · simp only [T.size]; omega
    · rw [e1] at e1'; cases e1'
  | seq s t ih =>
    intro ok sh st Q n g m hn
    simp only [T.size] at hn
    obtain ⟨r, s1, e1, m1⟩ := ih ok.2 sh.2 g m (by omega)
    rcases put_spec t ok.2 g with ⟨_, _, Q1, e1', g1, -, rd⟩ | e1'
    · rw [e1] at e1'; cases e1'
      have hl := items_len rd ok.1
      have hs : t.len < 64 := sh.1
      obtain ⟨k, x, he, hx⟩ := seq_atMost (g1.seqs s) r.items (m1.seqs s) (by omega) (by omega)
      refine ⟨.key (.seqs s) k, { s1 with seqs := Function.update s1.seqs s x }, by simp [put, e1, he], ?_⟩
      refine ⟨m1.idents.trans ?_, m1.files.trans ?_, fun b => (m1.boxes b).trans ?_, fun b' => ?_⟩
      · simp only [T.size]; omega
      · simp only [T.size]; omega
      · simp only [T.size]; omega
      · by_cases hb : b' = s
        · subst hb; simp only [Function.update_self, T.size]; omega
        · have := m1.seqs b'
          simp only [Function.update_of_ne hb, T.size]; omega
    · rw [e1] at e1'; cases e1'

/-- Number of parts of entities. -/
def sizes (l : List Any) : Nat := (l.map fun a => (shape a.2).size).sum

theorem putAll_room : ∀ (l : List Any) {st : Store} {Q : S → List (List R)} {n : Nat}, Good st Q → AtMost st n →
    (∀ a ∈ l, (shape a.2).Short) → n + sizes l ≤ 1023 → ∃ rs st', putAll l st = .ok (rs, st')
  | [], st, Q, n, g, m, _, _ => ⟨[], st, rfl⟩
  | a :: l, st, Q, n, g, m, hs, hn => by
    have hsz : sizes (a :: l) = (shape a.2).size + sizes l := by simp [sizes]
    obtain ⟨r, s1, e1, m1⟩ := put_room _ (shape_ok a.2) (hs a (by simp)) g m (by omega)
    rcases put_spec _ (shape_ok a.2) g with ⟨_, _, Q1, e1', g1, -, -⟩ | e1'
    · rw [e1] at e1'; cases e1'
      obtain ⟨rs, s2, e2⟩ := putAll_room l g1 m1 (fun b hb => hs b (by simp [hb])) (by omega)
      exact ⟨r :: rs, s2, by simp [putAll, e1, e2]⟩
    · rw [e1] at e1'; cases e1'

/-- **C92.** There is room for about a thousand parts of entities, in sequences of less than 64 items. -/
theorem c92_room (l : List Any) (hs : ∀ a ∈ l, (shape a.2).Short) (hn : sizes l ≤ 1023) :
    ∃ rs st, putAll l Store.new = .ok (rs, st) :=
  putAll_room l Good.new (n := 0) ⟨by simp [Store.new, Interner.new], by simp [Store.new, Interner.new],
    fun _ => by simp [Store.new, Interner.new], fun _ => by simp [Store.new, SeqInterner.new]⟩ hs (by omega)

/-! ### Limits -/

/-- Function arguments and value trailers are stored in little room. -/
def Tight (s : S) : Prop := s = .value ∨ s = .after

/-- No more than 1086 items. -/
def Full (st : Store) : Prop := ∀ s, Tight s → (st.seqs s).concatenated.length ≤ 1086

theorem intern_full {s : S} (hs : Tight s) {x x' : SeqInterner R} {q : List R} {k : Nat}
    (h : x.intern (cfg s) q = .ok (k, x')) (hx : x.concatenated.length ≤ 1086) : x'.concatenated.length ≤ 1086 := by
  unfold SeqInterner.intern at h
  split at h
  · cases h
  · cases h; exact hx
  · dsimp only at h
    split at h
    · cases h
    · rename_i key hk
      cases h
      have hc : cfg s = ⟨64, 6, miniSpur, by decide, by decide⟩ := by rcases hs with rfl | rfl <;> rfl
      rw [hc] at hk
      rw [tryPack_eq _ _ _ (by simp only; omega)] at hk
      split at hk
      · rename_i hf
        unfold Intern.Fits at hf
        simp only [miniSpur] at hf
        simp
        omega
      · cases hk

theorem put_full : ∀ (t : T) {st st' : Store} {r : R}, Full st → put t st = .ok (r, st') → Full st' := by
  intro t
  induction t with
  | ident i =>
    intro st st' r f h
    rw [put] at h
    split at h <;> cases h
    exact f
  | file i =>
    intro st st' r f h
    rw [put] at h
    split at h <;> cases h
    exact f
  | leaf l => intro st st' r f h; cases h; exact f
  | nil => intro st st' r f h; cases h; exact f
  | app a b ih ih' =>
    intro st st' r f h
    rw [put] at h
    split at h
    · cases h
    · rename_i e1
      split at h <;> cases h
      rename_i e2
      exact ih' (ih f e1) e2
  | cons a b ih ih' =>
    intro st st' r f h
    rw [put] at h
    split at h
    · cases h
    · rename_i e1
      split at h <;> cases h
      rename_i e2
      exact ih' (ih f e1) e2
  | boxed b t ih =>
    intro st st' r f h
    rw [put] at h
    split at h
    · cases h
    · rename_i e1
      split at h <;> cases h
      have f1 := ih f e1
      exact fun s hs => f1 s hs
  | seq s t ih =>
    intro st st' r f h
    rw [put] at h
    split at h
    · cases h
    · rename_i e1
      split at h <;> cases h
      rename_i e2
      intro s' hs'
      have f1 := ih f e1
      by_cases hb : s' = s
      · subst hb
        simpa using intern_full hs' e2 (f1 s' hs')
      · simpa [Function.update_of_ne hb] using f1 s' hs'

theorem putAll_full : ∀ (l : List Any) {st st' : Store} {rs : List R}, Full st → putAll l st = .ok (rs, st') → Full st'
  | [], st, st', rs, f, h => by cases h; exact f
  | a :: l, st, st', rs, f, h => by
    rw [putAll] at h
    split at h
    · cases h
    · rename_i e1
      split at h <;> cases h
      rename_i e2
      exact putAll_full l (put_full _ f e1) e2

theorem nonempty_count {α : Type} : ∀ qs : List (List α), (∀ q ∈ qs, q ≠ []) → qs.length ≤ qs.flatten.length
  | [], _ => by simp
  | q :: qs, h => by
    have := nonempty_count qs fun x hx => h x (by simp [hx])
    have h1 : 0 < q.length := List.length_pos_iff.2 (h q (by simp))
    simp
    simp at this
    omega

/-- **C92.** At most 1086 different non-empty lists of call arguments can be interned. -/
theorem c92_call_limit {l : List Any} {rs : List R} {st : Store} (h : putAll l Store.new = .ok (rs, st))
    (A : List (Ast (.list .value))) (hA : A.Nodup) (hne : ∀ x ∈ A, x ≠ .nil) (hin : ∀ x ∈ A, (⟨.after, .aCall x⟩ : Any) ∈ l) :
    A.length ≤ 1086 := by
  rcases putAll_spec l Good.new with ⟨rs', st', Q, e, g, -, hlen, hh⟩ | e
  swap
  · rw [h] at e; cases e
  rw [h] at e
  cases e
  have hf : Full st := putAll_full l (fun s _ => by simp [Store.new, SeqInterner.new]) h
  have hq : ∀ x ∈ A, ∃ q, q ∈ Q .value ∧ q ≠ [] ∧ Reads st (R.ofItems q) (shape x) := by
    intro x hx
    obtain ⟨i, hi, he⟩ := List.getElem_of_mem (hin x hx)
    have h1 : l[i]? = some ⟨.after, .aCall x⟩ := by rw [List.getElem?_eq_getElem hi, he]
    have h2 := hh i _ rs[i] h1 (List.getElem?_eq_getElem (by omega))
    simp only [shape] at h2
    generalize rs[i] = r at h2
    cases h2 with
    | app _ h3 =>
      cases h3 with
      | @seq _ k q _ hm hk hr =>
        obtain ⟨j, h4, h5⟩ := seq_idx (g.seqs .value) hm hk
        refine ⟨q, List.mem_of_getElem? h5, ?_, hr⟩
        rintro rfl
        have : shape x = .nil := reads_functional hr .nil
        exact hne x hx (shape_inj (b := .nil) this)
  choose! f hf1 hf2 hf3 using hq
  have hnd : (A.map f).Nodup := by
    refine List.Nodup.map_on ?_ hA
    intro x hx y hy he
    exact shape_inj (reads_functional (hf3 x hx) (he ▸ hf3 y hy))
  have hsub : A.map f ⊆ (Q .value).filter (· ≠ []) := by
    intro q hq
    obtain ⟨x, hx, rfl⟩ := List.mem_map.1 hq
    simp [hf1 x hx, hf2 x hx]
  have h1 := (hnd.subperm hsub).length_le
  have h2 := nonempty_count ((Q .value).filter (· ≠ [])) (by simp)
  have h3 : ((Q .value).filter (· ≠ [])).flatten.length ≤ (Q .value).flatten.length :=
    (List.Sublist.flatten List.filter_sublist).length_le
  have h4 := hf .value (Or.inl rfl)
  rw [(g.seqs .value).cat] at h4
  simp only [List.length_map] at h1
  omega

/-! ### Parsing sessions -/

/-- A call of `parse_entity`, with what gets interned on the way there and is then given up, be it in previous calls that
failed or by branches of this one that do. -/
structure Call where
  text : List Char
  dropped : List Any

/-- `parse_entity` (lib.rs 198-208): `none` if it panics, otherwise the result, `none` for an error, and the storage. -/
def Call.run (c : Call) (st : Store) : Option (Option (Option R) × Store) :=
  match putAll c.dropped st with
  | .error _ => none
  | .ok (_, st1) =>
    match parseEntity c.text with
    | .ok _ Option.none => some (some none, st1)
    | .ok _ (Option.some a) =>
      match put (shape a) st1 with
      | .error _ => none
      | .ok (r, st2) => some (some (some r), st2)
    | .err => some (none, st1)
    | _ => none

/-- Calls of `parse_entity` on the same parser. -/
def session : List Call → Store → Option (List (Option (Option R)) × Store)
  | [], st => some ([], st)
  | c :: l, st =>
    match c.run st with
    | none => none
    | some (k, st1) =>
      match session l st1 with
      | none => none
      | some (ks, st2) => some (k :: ks, st2)

/-- A result stands for what was parsed. -/
def Stands (st : Store) (text : List Char) : Option (Option R) → Prop
  | none => parseEntity text = .err
  | some none => ∃ rest, parseEntity text = .ok rest none
  | some (some k) => ∃ rest a, parseEntity text = .ok rest (some a) ∧ Reads st k (shape a)

theorem stands_mono {st st' : Store} {Q Q' : S → List (List R)} (g : Good st Q) (g' : Good st' Q') (l : Le st Q st' Q')
    {t : List Char} {k : Option (Option R)} (h : Stands st t k) : Stands st' t k := by
  match k, h with
  | none, h => exact h
  | some none, h => exact h
  | some (some k), ⟨rest, a, h1, h2⟩ => exact ⟨rest, a, h1, reads_mono g g' l h2⟩

theorem run_spec {c : Call} {st st' : Store} {Q : S → List (List R)} {k : Option (Option R)} (g : Good st Q)
    (h : c.run st = some (k, st')) : ∃ Q', Good st' Q' ∧ Le st Q st' Q' ∧ Stands st' c.text k := by
  unfold Call.run at h
  rcases putAll_spec c.dropped g with ⟨rs, s1, Q1, e1, g1, l1, -, -⟩ | e1
  swap
  · rw [e1] at h; cases h
  rw [e1] at h
  simp only at h
  split at h
  · cases h
    exact ⟨Q1, g1, l1, _, by assumption⟩
  · rename_i a hp
    rcases put_spec _ (shape_ok a) g1 with ⟨r, s2, Q2, e2, g2, l2, rd⟩ | e2
    · rw [e2] at h
      cases h
      exact ⟨Q2, g2, l1.trans l2, _, a, hp, rd⟩
    · rw [e2] at h; cases h
  · cases h
    exact ⟨Q1, g1, l1, by assumption⟩
  · cases h

theorem session_spec : ∀ (l : List Call) {st st' : Store} {Q : S → List (List R)} {ks : List (Option (Option R))},
    Good st Q → session l st = some (ks, st') → ∃ Q', Good st' Q' ∧ Le st Q st' Q' ∧ ks.length = l.length ∧
      ∀ (i : Nat) (c : Call) (k : Option (Option R)), l[i]? = some c → ks[i]? = some k → Stands st' c.text k
  | [], st, st', Q, ks, g, h => by
    cases h
    exact ⟨Q, g, Le.refl _ _, rfl, by simp⟩
  | c :: l, st, st', Q, ks, g, h => by
    rw [session] at h
    split at h
    · cases h
    · rename_i k s1 e1
      split at h
      · cases h
      · rename_i ks' s2 e2
        cases h
        obtain ⟨Q1, g1, l1, h1⟩ := run_spec g e1
        obtain ⟨Q2, g2, l2, hl, h2⟩ := session_spec l g1 e2
        refine ⟨Q2, g2, l1.trans l2, by simp [hl], ?_⟩
        intro i b r' hb hr
        cases i with
        | zero =>
          simp at hb hr
          subst hb; subst hr
          exact stands_mono g1 g2 l2 h1
        | succ i => exact h2 i b r' (by simpa using hb) (by simpa using hr)

/-- **C92.** Whatever a parser has been used for, two of its calls of `parse_entity` return the same key exactly when the
texts read as the same entity. -/
theorem c92_parse_iff {l : List Call} {ks : List (Option (Option R))} {st : Store} (h : session l Store.new = some (ks, st))
    {i j : Nat} {c d : Call} {k k' : Option R} (hc : l[i]? = some c) (hd : l[j]? = some d) (hk : ks[i]? = some (some k))
    (hk' : ks[j]? = some (some k')) : ∃ r r' a b, parseEntity c.text = .ok r a ∧ parseEntity d.text = .ok r' b ∧
      (k = k' ↔ a = b) := by
  obtain ⟨Q, g, -, -, hh⟩ := session_spec l Good.new h
  have h1 := hh i c _ hc hk
  have h2 := hh j d _ hd hk'
  match k, k', h1, h2 with
  | none, none, ⟨r, h1⟩, ⟨r', h2⟩ => exact ⟨r, r', none, none, h1, h2, by simp⟩
  | none, some _, ⟨r, h1⟩, ⟨r', b, h2, _⟩ => exact ⟨r, r', none, some b, h1, h2, by simp⟩
  | some _, none, ⟨r, a, h1, _⟩, ⟨r', h2⟩ => exact ⟨r, r', some a, none, h1, h2, by simp⟩
  | some k, some k', ⟨r, a, h1, rd⟩, ⟨r', b, h2, rd'⟩ =>
    refine ⟨r, r', some a, some b, h1, h2, ?_⟩
    rw [Option.some.injEq, Option.some.injEq]
    constructor
    · rintro rfl
      exact shape_inj (reads_functional rd rd')
    · rintro rfl
      exact reads_injective g rd rd'

/-- **C92.** Spellings of the same entity get the same key, spellings of others get other keys, and the key still reads as
that entity at the end of the session. -/
theorem c92_spellings {l : List Call} {ks : List (Option (Option R))} {st : Store} (h : session l Store.new = some (ks, st))
    {K : Char → Prop} {i j : Nat} {c d : Call} {a b : Ast .ty} (hc : l[i]? = some c) (hd : l[j]? = some d)
    (ha : Spells K a c.text) (hb : Spells K b d.text) : ∃ k k', ks[i]? = some (some (some k)) ∧
      ks[j]? = some (some (some k')) ∧ (k = k' ↔ a = b) ∧ ∀ x : Ast .ty, Reads st k (shape x) ↔ x = a := by
  obtain ⟨Q, g, -, hl, hh⟩ := session_spec l Good.new h
  have key : ∀ {i : Nat} {c : Call} {a : Ast .ty}, l[i]? = some c → Spells K a c.text →
      ∃ k, ks[i]? = some (some (some k)) ∧ Reads st k (shape a) := by
    intro i c a hc ha
    have hi : i < l.length := by
      by_contra hcon
      rw [List.getElem?_eq_none (by omega)] at hc; cases hc
    have hp := c63_reads ha
    have hs := hh i c ks[i] hc (List.getElem?_eq_getElem (by omega))
    have he : ks[i]? = some ks[i] := List.getElem?_eq_getElem (by omega)
    rw [he]
    generalize ks[i] = k at hs
    match k, hs with
    | none, hs => exact absurd (hp.symm.trans hs) (by simp)
    | some none, ⟨r, hs⟩ => exact absurd (hp.symm.trans hs) (by simp)
    | some (some k), ⟨r, a', hs, rd⟩ =>
      have := hp.symm.trans hs
      simp only [Res.ok.injEq, Option.some.injEq] at this
      obtain ⟨-, rfl⟩ := this
      exact ⟨k, rfl, rd⟩
  obtain ⟨k, hk, rd⟩ := key hc ha
  obtain ⟨k', hk', rd'⟩ := key hd hb
  refine ⟨k, k', hk, hk', ⟨?_, ?_⟩, fun x => ⟨fun hx => shape_inj (reads_functional hx rd), fun hx => hx ▸ rd⟩⟩
  · rintro rfl
    exact shape_inj (reads_functional rd rd')
  · rintro rfl
    exact reads_injective g rd rd'

/-- A session: the same types written differently, the unknown entity, and a text that is rejected. -/
def sampleSession : List Call :=
  [⟨"A<int>".toList, [⟨.ty, .ty .nil ⟨false, false⟩ (.stAuto 1) .nil⟩]⟩, ⟨"A< int >".toList, []⟩, ⟨"A<".toList, []⟩, ⟨"<unknown>".toList, []⟩,
   ⟨"int".toList, []⟩, ⟨"signed".toList, []⟩, ⟨"A<signed int>".toList, []⟩, ⟨"B<int>".toList, []⟩]

/-- Keys of types returned by a session. -/
def typeKeys (l : List Call) : Option (List (Option (Option R))) := (session l Store.new).map fun p => p.1

example : typeKeys sampleSession = some [some (some (.key (.boxes .type) 2)), some (some (.key (.boxes .type) 2)), none,
    some none, some (some (.key (.boxes .type) 1)), some (some (.key (.boxes .type) 1)),
    some (some (.key (.boxes .type) 2)), some (some (.key (.boxes .type) 3))] := by decide +kernel

theorem sampleSession_runs : ∃ ks st, session sampleSession Store.new = some (ks, st) ∧
    ks[0]? = some (some (some (.key (.boxes .type) 2))) ∧ ks[1]? = some (some (some (.key (.boxes .type) 2))) ∧
    ks[7]? = some (some (some (.key (.boxes .type) 3))) := by
  have h : typeKeys sampleSession = some [some (some (.key (.boxes .type) 2)), some (some (.key (.boxes .type) 2)), none,
    some none, some (some (.key (.boxes .type) 1)), some (some (.key (.boxes .type) 1)),
    some (some (.key (.boxes .type) 2)), some (some (.key (.boxes .type) 3))] := by decide +kernel
  unfold typeKeys at h
  cases hs : session sampleSession Store.new with
  | none => rw [hs] at h; cases h
  | some p =>
    obtain ⟨ks, st⟩ := p
    rw [hs] at h
    simp only [Option.map_some, Option.some.injEq] at h
    subst h
    exact ⟨_, st, rfl, rfl, rfl, rfl⟩

/-- `A<int>` and `A< int >` are read as the same entity, `B<int>` as another. -/
example : ∃ r r' a b, parseEntity "A<int>".toList = .ok r a ∧ parseEntity "B<int>".toList = .ok r' b ∧ a ≠ b := by
  obtain ⟨ks, st, h, h0, h1, h7⟩ := sampleSession_runs
  obtain ⟨r, r', a, b, ha, hb, hab⟩ := c92_parse_iff h (i := 0) (j := 7) rfl rfl h0 h7
  exact ⟨r, r', a, b, ha, hb, fun e => absurd (hab.2 e) (by decide)⟩

/-- `1`, as a value. -/
def exOne : Ast .value := .value (.hLit ⟨.i64 1, none⟩) .nil

/-- `int`, `(1)` after a value, `auto:1`, `int` again. -/
def sampleAny : List Any :=
  [⟨.ty, exInt⟩, ⟨.after, .aCall (.cons exOne .nil)⟩, ⟨.ty, .ty .nil ⟨false, false⟩ (.stAuto 1) .nil⟩, ⟨.ty, exInt⟩]

theorem sampleAny_runs : ∃ rs st, putAll sampleAny Store.new = .ok (rs, st) :=
  c92_room sampleAny (by simp [sampleAny, exInt, exOne, shape, T.Short, T.len, optIdent])
    (by simp [sampleAny, exInt, exOne, sizes, shape, T.size, T.len, optIdent])

example : ∃ rs st r r', putAll sampleAny Store.new = .ok (rs, st) ∧ rs[0]? = some r ∧ rs[3]? = some r ∧ rs[2]? = some r' ∧
    r ≠ r' := by
  obtain ⟨rs, st, h⟩ := sampleAny_runs
  rcases c92_only_exhaustion sampleAny with ⟨rs', st', h', hl⟩ | h'
  · rw [h] at h'
    cases h'
    have hl : rs.length = 4 := hl
    have e0 : rs[0]? = some rs[0] := List.getElem?_eq_getElem _
    have e2 : rs[2]? = some rs[2] := List.getElem?_eq_getElem _
    have e3 : rs[3]? = some rs[3] := List.getElem?_eq_getElem _
    refine ⟨rs, st, rs[0], rs[2], h, e0, ?_, e2, ?_⟩
    · rw [e3]
      exact congrArg some ((c92_keys_iff h (i := 3) (j := 0) (a := exInt) (b := exInt) rfl rfl e3 e0).2 rfl)
    · intro e
      exact absurd ((c92_keys_iff h (i := 0) (j := 2) (a := exInt) rfl rfl e0 e2).1 e) (by simp [exInt])
  · rw [h] at h'; cases h'

example : ∃ rs st r, putAll [⟨.ty, exInt⟩] Store.new = .ok (rs, st) ∧ rs[0]? = some r ∧
    ∀ b : Ast .ty, Reads st r (shape b) ↔ b = exInt := by
  obtain ⟨rs, st, h⟩ := sampleAny_runs
  obtain ⟨rs₀, st₀, r, h1, h2, h3, -⟩ := c92_reads (l := [⟨.ty, exInt⟩]) (l' := sampleAny.tail) h (i := 0) (a := exInt) rfl
  exact ⟨rs₀, st₀, r, h1, h2, h3⟩

example : [Ast.cons exOne .nil].length ≤ 1086 := by
  obtain ⟨rs, st, h⟩ := sampleAny_runs
  exact c92_call_limit h [Ast.cons exOne .nil] (by simp) (by simp) (by simp [sampleAny])

/-- In a session, on spellings. -/
theorem intSession_runs : ∃ ks st, session [⟨"int".toList, sampleAny⟩, ⟨"char const *".toList, []⟩] Store.new = some (ks, st) := by
  have h : (session [⟨"int".toList, sampleAny⟩, ⟨"char const *".toList, []⟩] Store.new).isSome = true := by decide +kernel
  obtain ⟨p, hp⟩ := Option.isSome_iff_exists.1 h
  exact ⟨p.1, p.2, hp⟩

example : ∃ ks st k k', session [⟨"int".toList, sampleAny⟩, ⟨"char const *".toList, []⟩] Store.new = some (ks, st) ∧
    ks[0]? = some (some (some k)) ∧ ks[1]? = some (some (some k')) ∧ k ≠ k' ∧ Reads st k (shape exInt) := by
  obtain ⟨ks, st, h⟩ := intSession_runs
  obtain ⟨k, k', h1, h2, h3, h4⟩ := c92_spellings h (i := 0) (j := 1) rfl rfl exInt_spells exChar_spells
  exact ⟨ks, st, k, k', h, h1, h2, fun e => absurd (h3.1 e) (by simp [exInt, exChar]), (h4 exInt).2 rfl⟩

end Verif.Cpp.Keys
