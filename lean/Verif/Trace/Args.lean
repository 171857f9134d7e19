import Verif.Trace.Model
import Mathlib.Data.List.Basic
import Mathlib.Data.List.Perm.Basic
import Mathlib.Data.List.Nodup
import Mathlib.Order.Lattice

/-! # Properties C11, C12, C13: argument, statistic and metadata parsing -/

set_option autoImplicit false
set_option linter.unusedSectionVars false

namespace Verif.Trace

variable {F : Type}

/-- No JSON object holds the same key twice once deserialized into a map. -/
def KeysDistinct (m : Args F) : Prop := (m.map (·.1)).Nodup

/-! ## C11 -/

/-- **C11** a detail string is obtained iff the args object consists of exactly one key `detail`
whose value is that string. -/
theorem c11_detail_iff (args : Option (Args F)) (s : String) :
    parseDetailArg args = .ok s ↔ args = some [("detail", .str s)] := by
  constructor
  · intro h
    unfold parseDetailArg at h
    split at h <;> try (simp at h; done)
    rename_i k v rest
    split at h <;> try (simp at h; done)
    rename_i hk
    split at h <;> try (simp at h; done)
    split at h <;> try (simp at h; done)
    simp at h
    rw [hk, h]
  · rintro rfl; rfl

/-- Requirements on the args object of an activity, by kind (independent of the parser). -/
def Shape (t : ArgType) (args : Option (Args F)) : Prop :=
  let empty := args = none ∨ args = some []
  let detail := ∃ s, args = some [("detail", .str s)]
  match t with
  | .nothing => empty
  | .symbolOpt | .unnamedLoopOpt => empty ∨ detail
  | _ => detail

/-- Detail string carried by an args object, if it has the accepted shape. -/
def detailOf (args : Option (Args F)) : Option String :=
  match args with
  | some [(k, .str s)] => if k = "detail" then some s else none
  | _ => none

theorem detailOf_eq (args : Option (Args F)) (s : String) :
    detailOf args = some s ↔ args = some [("detail", .str s)] := by
  constructor
  · intro h
    unfold detailOf at h
    split at h <;> try (simp at h; done)
    rename_i k v
    split at h <;> try (simp at h; done)
    rename_i hk
    simp at h
    rw [hk, h]
  · rintro rfl; simp [detailOf]

theorem parseDetailArg_missing (args : Option (Args F)) (k : String) :
    parseDetailArg args = .error (.missingKey k) → args = none ∨ args = some [] := by
  intro h
  unfold parseDetailArg at h
  split at h
  · exact .inl rfl
  · exact .inr rfl
  · split at h
    · split at h
      · split at h <;> simp at h
      · simp at h
    · simp at h

theorem parseDetailArg_empty (args : Option (Args F)) (h : args = none ∨ args = some []) :
    parseDetailArg args = .error (.missingKey "detail") := by
  rcases h with rfl | rfl <;> rfl

theorem parseEmptyArgs_ok (args : Option (Args F)) :
    parseEmptyArgs args = .ok () ↔ args = none ∨ args = some [] := by
  unfold parseEmptyArgs
  split <;> simp_all

/-- The inference panics exactly on the empty string. -/
theorem infer_none_iff (cc : CharClass) (d : String) : inferFromDetail cc d = none ↔ d = "" := by
  have hd : d = "" ↔ d.toList = [] := by
    constructor
    · rintro rfl; rfl
    · intro h; exact String.toList_inj.1 (by rw [h]; rfl)
  rw [hd]
  unfold inferFromDetail
  generalize d.toList = l
  have e1 : ∀ (P Q R : Prop) [Decidable P] [Decidable Q] [Decidable R] (a b c : ArgType)
      (x : Option ArgType), ¬ P → ¬ Q → ¬ R →
      (if P then some a else if Q then some b else if R then some c else x) = x := by
    intro P Q R _ _ _ a b c x h1 h2 h3
    rw [if_neg h1, if_neg h2, if_neg h3]
  have e3 : ∀ (P : Prop) [Decidable P] (a : ArgType) (x : Option ArgType), x ≠ none →
      (if P then some a else x) ≠ none := by
    intro P _ a x hx; split <;> simp [hx]
  have e2 : ∀ (P Q R : Prop) [Decidable P] [Decidable Q] [Decidable R] (a b c : ArgType)
      (x : Option ArgType), x ≠ none →
      (if P then some a else if Q then some b else if R then some c else x) ≠ none := by
    intro P Q R _ _ _ a b c x hx
    exact e3 _ _ _ (e3 _ _ _ (e3 _ _ _ hx))
  constructor
  · intro h
    cases l with
    | nil => rfl
    | cons c cs =>
      exfalso
      refine e2 _ _ _ _ _ _ _ ?_ h
      dsimp only
      refine e3 _ _ _ ?_
      exact e3 _ _ _ (by nofun)
  · rintro rfl
    apply e1 <;> decide

/-- What a successfully parsed activity records. -/
theorem parseActivity_ok {cc : CharClass} {name : String} {args : Option (Args F)} {a : Activity}
    (h : parseActivity cc name args = .ok a) :
    a.name = name ∧ a.detail = detailOf args ∧
      (∀ t, activities.lookup name = some t → a.known = true ∧ a.argType = t ∧ Shape t args) ∧
      (activities.lookup name = none → a.known = false ∧
        ((a.argType = .nothing ∧ (args = none ∨ args = some [])) ∨
         ∃ s, args = some [("detail", .str s)] ∧ inferFromDetail cc s = some a.argType)) := by
  have dnone : ∀ args : Option (Args F), args = none ∨ args = some [] → detailOf args = none := by
    rintro _ (rfl | rfl) <;> rfl
  unfold parseActivity at h
  cases hl : activities.lookup name with
  | none =>
    rw [hl] at h
    simp only at h
    split at h
    · rename_i d hd
      rw [c11_detail_iff] at hd
      split at h
      · simp at h
      · rename_i t ht
        cases h
        exact ⟨rfl, ((detailOf_eq _ _).2 hd).symm, by simp, fun _ => ⟨rfl, .inr ⟨d, hd, ht⟩⟩⟩
    · rename_i hd
      have := parseDetailArg_missing _ _ hd
      cases h
      exact ⟨rfl, (dnone _ this).symm, by simp, fun _ => ⟨rfl, .inl ⟨rfl, this⟩⟩⟩
    · simp at h
  | some t =>
    rw [hl] at h
    have hdet : ∀ {t' : ArgType}, (match parseDetailArg args with
        | .ok d =>
          match inferFromDetail cc d with
          | none => ActRes.panic
          | some _ => ActRes.ok ⟨name, true, t', some d⟩
        | .error e => ActRes.badArguments name e) = ActRes.ok a →
        a = ⟨name, true, t', detailOf args⟩ ∧ ∃ s, args = some [("detail", JVal.str s)] := by
      intro t' h
      split at h
      · rename_i d hd
        rw [c11_detail_iff] at hd
        split at h
        · simp at h
        · cases h
          exact ⟨by rw [(detailOf_eq _ _).2 hd], d, hd⟩
      · simp at h
    have hopt : ∀ {t' : ArgType}, (match parseDetailArg args with
        | .ok d => ActRes.ok ⟨name, true, t', some d⟩
        | .error (.missingKey _) => ActRes.ok ⟨name, true, t', none⟩
        | .error e => ActRes.badArguments name e) = ActRes.ok a →
        a = ⟨name, true, t', detailOf args⟩ ∧ ((args = none ∨ args = some []) ∨
          ∃ s, args = some [("detail", JVal.str s)]) := by
      intro t' h
      split at h
      · rename_i d hd
        rw [c11_detail_iff] at hd
        cases h
        exact ⟨by rw [(detailOf_eq _ _).2 hd], .inr ⟨d, hd⟩⟩
      · rename_i hd
        have := parseDetailArg_missing _ _ hd
        cases h
        exact ⟨by rw [dnone _ this], .inl this⟩
      · simp at h
    cases t with
    | nothing =>
      simp only at h
      split at h
      · rename_i he
        rw [parseEmptyArgs_ok] at he
        cases h
        exact ⟨rfl, (dnone _ he).symm, by rintro t ⟨⟩; exact ⟨rfl, rfl, he⟩, by simp⟩
      · simp at h
    | symbolOpt =>
      obtain ⟨rfl, hs⟩ := hopt h
      exact ⟨rfl, rfl, by rintro t ⟨⟩; exact ⟨rfl, rfl, hs⟩, by simp⟩
    | unnamedLoopOpt =>
      obtain ⟨rfl, hs⟩ := hopt h
      exact ⟨rfl, rfl, by rintro t ⟨⟩; exact ⟨rfl, rfl, hs⟩, by simp⟩
    | _ =>
      obtain ⟨rfl, hs⟩ := hdet h
      exact ⟨rfl, rfl, by rintro t ⟨⟩; exact ⟨rfl, rfl, hs⟩, by simp⟩

/-- **C11** a known activity is accepted exactly when its args have the shape its kind requires;
it is then recorded with its own name, kind and detail.  (An empty detail string is excluded: the
code panics on it, see `c10_empty_detail_violated`.) -/
theorem c11_known_accept_iff (cc : CharClass) (name : String) (t : ArgType)
    (ht : activities.lookup name = some t) (args : Option (Args F))
    (hne : args ≠ some [("detail", .str "")]) :
    (parseActivity cc name args = .ok ⟨name, true, t, detailOf args⟩ ↔ Shape t args) ∧
    ((∃ a, parseActivity cc name args = .ok a) ↔ Shape t args) := by
  have fwd : ∀ a, parseActivity cc name args = .ok a → Shape t args := fun a h =>
    ((parseActivity_ok h).2.2.1 t ht).2.2
  have bwd : Shape t args → parseActivity cc name args = .ok ⟨name, true, t, detailOf args⟩ := by
    intro hs
    unfold parseActivity
    rw [ht]
    have hd : ∀ s, args = some [("detail", .str s)] →
        ∃ t', inferFromDetail cc s = some t' := by
      intro s hs
      cases hi : inferFromDetail cc s with
      | none => rw [infer_none_iff] at hi; subst hi; exact absurd hs hne
      | some t' => exact ⟨t', rfl⟩
    cases t with
    | nothing =>
      have he : parseEmptyArgs args = .ok () := (parseEmptyArgs_ok args).2 hs
      simp only [he]
      rcases hs with rfl | rfl <;> rfl
    | symbolOpt =>
      rcases hs with (rfl | rfl) | ⟨s, rfl⟩ <;> simp [parseDetailArg, detailOf]
    | unnamedLoopOpt =>
      rcases hs with (rfl | rfl) | ⟨s, rfl⟩ <;> simp [parseDetailArg, detailOf]
    | _ =>
      obtain ⟨s, hs⟩ := hs
      obtain ⟨t', hi⟩ := hd s hs
      subst hs
      simp [parseDetailArg, detailOf, hi]
  exact ⟨⟨fwd _, bwd⟩, ⟨fun ⟨a, h⟩ => fwd a h, fun h => ⟨_, bwd h⟩⟩⟩

/-- **C11** an unknown activity is accepted iff it has no args or a single detail string; it is
then kept under its own name. -/
theorem c11_unknown_accept_iff (cc : CharClass) (name : String)
    (ht : activities.lookup name = none) (args : Option (Args F))
    (hne : args ≠ some [("detail", .str "")]) :
    (∃ a, parseActivity cc name args = .ok a) ↔
      (args = none ∨ args = some [] ∨ ∃ s, args = some [("detail", .str s)]) := by
  constructor
  · rintro ⟨a, h⟩
    rcases ((parseActivity_ok h).2.2.2 ht).2 with ⟨-, h | h⟩ | ⟨s, h, -⟩
    · exact .inl h
    · exact .inr (.inl h)
    · exact .inr (.inr ⟨s, h⟩)
  · intro h
    unfold parseActivity
    rw [ht]
    rcases h with rfl | rfl | ⟨s, rfl⟩
    · simp [parseDetailArg]
    · simp [parseDetailArg]
    · cases hi : inferFromDetail cc s with
      | none => rw [infer_none_iff] at hi; subst hi; exact absurd rfl hne
      | some t' => simp [parseDetailArg, hi]

/-- **C11** the outcome of a successful parse does not depend on the iteration order of the args
map. -/
theorem c11_order_independent (cc : CharClass) (name : String) (l₁ l₂ : Args F)
    (hp : l₁.Perm l₂) (a : Activity) :
    parseActivity cc name (some l₁) = .ok a ↔ parseActivity cc name (some l₂) = .ok a := by
  have key : ∀ {l₁ l₂ : Args F}, l₁.Perm l₂ → parseActivity cc name (some l₁) = .ok a →
      parseActivity cc name (some l₂) = .ok a := by
    intro l₁ l₂ hp h
    have hshape : l₁ = [] ∨ ∃ s, l₁ = [("detail", .str s)] := by
      obtain ⟨-, -, h1, h2⟩ := parseActivity_ok h
      cases hl : activities.lookup name with
      | none =>
        rcases (h2 hl).2 with ⟨-, h | h⟩ | ⟨s, h, -⟩
        · simp at h
        · exact .inl (by simpa using h)
        · exact .inr ⟨s, by simpa using h⟩
      | some t =>
        have := (h1 t hl).2.2
        cases t <;> simp [Shape] at this <;> grind
    rcases hshape with rfl | ⟨s, rfl⟩
    · rw [List.nil_perm.1 hp]; exact h
    · rw [List.perm_singleton.1 hp.symm]; exact h
  exact ⟨key hp, key hp.symm⟩

/-- **C11** when unexpected keys are reported, they are all the keys other than `detail`, none
missing and none added, whatever the iteration order. -/
theorem c11_unexpected_keys (l rest : Args F) (hd : KeysDistinct l)
    (h : parseDetailArg (some l) = .error (.unexpectedKeys rest)) :
    rest = l.filter (fun kv => kv.1 ≠ "detail") ∧ rest ≠ [] := by
  unfold parseDetailArg at h
  split at h <;> try (simp at h; done)
  rename_i k v tl heq
  cases heq
  split at h
  · rename_i hk
    subst hk
    split at h
    · split at h
      · simp at h
      · rename_i s kv rest'
        simp only [Except.error.injEq, ArgErr.unexpectedKeys.injEq] at h
        subst h
        have hkv : kv.1 ≠ "detail" := by
          intro he
          unfold KeysDistinct at hd
          simp [he] at hd
        constructor
        · simp [remove]
        · simp [remove, List.filter_cons, hkv]
    · simp at h
  · rename_i hk
    simp only [Except.error.injEq, ArgErr.unexpectedKeys.injEq] at h
    subst h
    simp [remove, List.filter_cons, hk]

example : ∃ a, parseActivity (F := Int) ⟨fun _ => true, fun _ => true⟩ "Source"
    (some [("detail", .str "/a.h")]) = .ok a :=
  ((c11_known_accept_iff _ "Source" .filePathOrModule (by decide) _ (by decide)).2).2
    ⟨"/a.h", rfl⟩
example : ¬ ∃ a, parseActivity (F := Int) ⟨fun _ => true, fun _ => true⟩ "Source" none = .ok a := by
  rw [(c11_known_accept_iff _ "Source" .filePathOrModule (by decide) _ (by decide)).2]
  rintro ⟨s, hs⟩; cases hs

/-! ## C12 -/

theorem parseGlobalArgs_keys (l : Args F) : ∀ (c : Option Nat) (a : Option F) (r : Nat × F),
    parseGlobalArgs c a l = .ok r → ∀ kv ∈ l, kv.1 = "count" ∨ kv.1 = "avg ms" := by
  induction l with
  | nil => simp
  | cons kv l ih =>
    intro c a r h
    obtain ⟨k, v⟩ := kv
    unfold parseGlobalArgs at h
    intro kv hkv
    rcases List.mem_cons.1 hkv with rfl | hkv
    · by_cases h1 : k = "count"
      · exact .inl h1
      · by_cases h2 : k = "avg ms"
        · exact .inr h2
        · simp [h1, h2] at h
    · split at h
      · split at h
        · exact ih _ _ _ h kv hkv
        · simp at h
      · split at h
        · split at h
          · exact ih _ _ _ h kv hkv
          · simp at h
        · simp at h

/-- Exactly the two documented keys, with values of the documented kinds, in any order. -/
def GlobalArgsShape (l : Args F) (count : Nat) (avg : F) : Prop :=
  ∃ v w, l.Perm [("count", v), ("avg ms", w)] ∧ v.asU64 = some count ∧ w.asF64 = some avg

theorem parseGlobalArgs_iff (l : Args F) (hd : KeysDistinct l) (c : Nat) (a : F) :
    parseGlobalArgs none none l = .ok (c, a) ↔ GlobalArgsShape l c a := by
  constructor
  · intro h
    have hk := parseGlobalArgs_keys l _ _ _ h
    match l, hd, hk, h with
    | [], _, _, h => simp [parseGlobalArgs] at h
    | [(k, v)], _, hk, h =>
      rcases hk (k, v) (by simp) with h1 | h1 <;> simp only at h1 <;> subst h1
      · cases hv : v.asU64 <;> simp [parseGlobalArgs, hv] at h
      · cases hv : v.asF64 <;> simp [parseGlobalArgs, hv] at h
    | [(k, v), (k', w)], hd, hk, h =>
      simp [KeysDistinct] at hd
      rcases hk (k, v) (by simp) with h1 | h1 <;> simp only at h1 <;> subst h1 <;>
        rcases hk (k', w) (by simp) with h2 | h2 <;> simp only at h2 <;> subst h2
      · simp at hd
      · cases hv : v.asU64 with
        | none => simp [parseGlobalArgs, hv] at h
        | some x =>
          cases hw : w.asF64 with
          | none => simp [parseGlobalArgs, hv, hw] at h
          | some y =>
            simp [parseGlobalArgs, hv, hw] at h
            exact ⟨v, w, .refl _, by rw [hv, h.1], by rw [hw, h.2]⟩
      · cases hv : v.asF64 with
        | none => simp [parseGlobalArgs, hv] at h
        | some x =>
          cases hw : w.asU64 with
          | none => simp [parseGlobalArgs, hv, hw] at h
          | some y =>
            simp [parseGlobalArgs, hv, hw] at h
            exact ⟨w, v, .swap _ _ _, by rw [hw, h.1], by rw [hv, h.2]⟩
      · simp at hd
    | (k, v) :: (k', w) :: (k'', u) :: tl, hd, hk, h =>
      exfalso
      simp [KeysDistinct] at hd
      have h1 := hk (k, v) (by simp)
      have h2 := hk (k', w) (by simp)
      have h3 := hk (k'', u) (by simp)
      simp only at h1 h2 h3
      grind
  · rintro ⟨v, w, hp, hv, hw⟩
    have : l = [("count", v), ("avg ms", w)] ∨ l = [("avg ms", w), ("count", v)] := by
      have hlen := hp.length_eq
      match l, hlen, hp with
      | [x, y], _, hp =>
        have hx : x = ("count", v) ∨ x = ("avg ms", w) := by
          have := hp.mem_iff.1 (show x ∈ [x, y] by simp); simpa using this
        rcases hx with rfl | rfl
        · have := (List.perm_cons _).1 hp
          rw [List.perm_singleton.1 this]; simp
        · have := hp.trans (List.Perm.swap _ _ _)
          have := (List.perm_cons _).1 this
          rw [List.perm_singleton.1 this]; simp
    rcases this with rfl | rfl <;> simp [parseGlobalArgs, hv, hw]

/-- **C12** statistics args: the outcome of a successful parse does not depend on map order. -/
theorem c12_args_order_independent (l₁ l₂ : Args F) (hd : KeysDistinct l₁) (hp : l₁.Perm l₂)
    (r : Nat × F) :
    parseGlobalArgs none none l₁ = .ok r ↔ parseGlobalArgs none none l₂ = .ok r := by
  obtain ⟨c, a⟩ := r
  have hd2 : KeysDistinct l₂ := (hp.map _).nodup_iff.1 hd
  rw [parseGlobalArgs_iff _ hd, parseGlobalArgs_iff _ hd2]
  constructor
  · rintro ⟨v, w, h, h'⟩; exact ⟨v, w, hp.symm.trans h, h'⟩
  · rintro ⟨v, w, h, h'⟩; exact ⟨v, w, hp.trans h, h'⟩

/-- **C12** when unexpected keys are reported, they are exactly all the keys other than the two
documented ones. -/
theorem c12_unexpected_keys (l : Args F) : ∀ (c : Option Nat) (a : Option F) (rest : Args F),
    parseGlobalArgs c a l = .error (.unexpectedKeys rest) →
    rest = l.filter (fun kv => kv.1 ≠ "count" ∧ kv.1 ≠ "avg ms") ∧ rest ≠ [] := by
  induction l with
  | nil => intro c a rest h; cases c <;> cases a <;> simp [parseGlobalArgs] at h
  | cons kv l ih =>
    obtain ⟨k, v⟩ := kv
    intro c a rest h
    unfold parseGlobalArgs at h
    split at h
    · rename_i hk
      split at h
      · obtain ⟨h1, h2⟩ := ih _ _ _ h
        exact ⟨by rw [h1]; simp [List.filter_cons, hk], h2⟩
      · simp at h
    · rename_i hk
      split at h
      · rename_i hk2
        split at h
        · obtain ⟨h1, h2⟩ := ih _ _ _ h
          exact ⟨by rw [h1]; simp [List.filter_cons, hk2], h2⟩
        · simp at h
      · rename_i hk2
        simp only [Except.error.injEq, ArgErr.unexpectedKeys.injEq] at h
        subst h
        constructor
        · simp [remove, List.filter_cons, hk, hk2, and_comm]
        · simp [remove, List.filter_cons, hk, hk2]

theorem stripPrefix_iff (pre s r : String) : stripPrefix pre s = some r ↔ s = pre ++ r := by
  unfold stripPrefix
  constructor
  · intro h
    split at h
    · rename_i hp
      rw [List.isPrefixOf_iff_prefix] at hp
      obtain ⟨t, ht⟩ := hp
      rw [← ht] at h
      simp at h
      subst h
      apply String.toList_inj.1
      simp [← ht]
    · simp at h
  · rintro rfl
    simp

variable [LinearOrder F] [Zero F] [One F] [Add F] [Sub F]

/-- **C12** a complete event is accepted as a global statistic called `n` iff its name is
`"Total " ++ n`, its timestamp is zero, its thread id nonzero, it has no category, thread
timestamp, thread duration or stack trace and its args are exactly a count and an average. -/
theorem c12_accept_iff (pid tid : Int) (ts : F) (name : Option String)
    (cat : Option (List String)) (tts : Option F) (args : Args F) (st : Option String) (dur : F)
    (tdur : Option F) (est : Option String) (hd : KeysDistinct args) (n : String)
    (g : GlobalStat F) :
    parseGlobal (.x ⟨pid, tid, ts, name, cat, tts, some args, st⟩ dur tdur est) = .ok (n, g) ↔
      name = some ("Total " ++ n) ∧ ts = 0 ∧ tid ≠ 0 ∧ cat = none ∧ tts = none ∧ st = none ∧
      tdur = none ∧ est = none ∧ g.total = dur ∧ ∃ avg, GlobalArgsShape args g.count avg := by
  constructor
  · intro h
    unfold parseGlobal at h
    split at h <;> try (simp at h; done)
    rename_i heq
    cases heq
    split at h <;> try (simp at h; done)
    rename_i hc
    split at h <;> try (simp at h; done)
    rename_i hs
    split at h <;> try (simp at h; done)
    rename_i ha
    cases h
    rw [stripPrefix_iff] at hs
    rw [parseGlobalArgs_iff _ hd] at ha
    exact ⟨by rw [hs], hc.2, hc.1, rfl, rfl, rfl, rfl, rfl, rfl, _, ha⟩
  · rintro ⟨rfl, rfl, ht, rfl, rfl, rfl, rfl, rfl, hg, avg, ha⟩
    rw [← parseGlobalArgs_iff _ hd] at ha
    have hs := (stripPrefix_iff "Total " ("Total " ++ n) n).2 rfl
    unfold parseGlobal
    simp only [ht, ha, hs]
    cases g
    simp_all

/-- **C12** an event without args is never a global statistic. -/
theorem c12_no_args (d : DurEvent F) (dur : F) (tdur : Option F) (est : Option String)
    (h : d.args = none) (n : String) (g : GlobalStat F) :
    parseGlobal (.x d dur tdur est) ≠ .ok (n, g) := by
  intro hc
  unfold parseGlobal at hc
  split at hc <;> try (simp at hc; done)
  rename_i heq
  cases heq
  simp at h

example : parseGlobal (F := Int) (.x ⟨4, 5, 0, some "Total Frontend", none, none,
    some [("avg ms", .num none 3), ("count", .num (some 2) 2)], none⟩ 6 none none) =
    .ok ("Frontend", ⟨6, 2⟩) :=
  (c12_accept_iff 4 5 0 _ none none _ none 6 none none (by simp [KeysDistinct]) "Frontend" ⟨6, 2⟩).2
    ⟨rfl, rfl, by decide, rfl, rfl, rfl, rfl, rfl, rfl, 3, _, _, List.Perm.swap _ _ _, rfl, rfl⟩

/-! ## C13 -/

/-- **C13** a process name event is accepted iff it has no extra args, an empty category list, a
zero timestamp, no thread timestamp, and a thread id equal to the process id (or the `1`/`0` pair
of old clang versions); the result is the announced name. -/
theorem c13_process_name_iff (m : MetaEvent F) (n : String) :
    parseProcessName m = some n ↔ ∃ pid tid,
      m = .processName pid n [] (some tid) ⟨some [], some 0, none⟩ ∧
      ((pid = 1 ∧ tid = 0) ∨ tid = pid) := by
  constructor
  · intro h
    unfold parseProcessName at h
    split at h <;> try (simp at h; done)
    rename_i pid name extra tid cat ts
    split at h <;> try (simp at h; done)
    rename_i hc
    cases h
    obtain ⟨h1, h2, h3, h4⟩ := hc
    simp only [List.isEmpty_iff] at h1 h2
    subst h1 h2 h3
    rcases h4 with ⟨rfl, rfl⟩ | rfl
    · exact ⟨1, 0, rfl, .inl ⟨rfl, rfl⟩⟩
    · exact ⟨pid, pid, rfl, .inr rfl⟩
  · rintro ⟨pid, tid, rfl, h⟩
    simp only [parseProcessName]
    rw [if_pos]
    refine ⟨by simp, by simp, by simp, ?_⟩
    rcases h with ⟨h1, h2⟩ | h
    · exact .inl ⟨h1, by rw [h2]⟩
    · exact .inr (by rw [h])

/-- **C13** a thread name event is accepted iff it has no extra args, an empty category list, a
zero timestamp, no thread timestamp and a process id equal to its thread id. -/
theorem c13_thread_name_iff (m : MetaEvent F) (n : String) :
    parseThreadName m = some n ↔ ∃ tid,
      m = .threadName tid n [] (some tid) ⟨some [], some 0, none⟩ := by
  constructor
  · intro h
    unfold parseThreadName at h
    split at h <;> try (simp at h; done)
    rename_i tid name extra pid cat ts
    split at h <;> try (simp at h; done)
    rename_i hc
    cases h
    obtain ⟨h1, h2, h3, h4⟩ := hc
    simp only [List.isEmpty_iff] at h1 h2
    subst h1 h2 h3 h4
    exact ⟨tid, rfl⟩
  · rintro ⟨tid, rfl⟩
    simp [parseThreadName]

/-- **C13** an event's category list is empty iff its category string has no character other than
the separators. -/
theorem c13_categories_empty (parts : List String) :
    categories parts = [] ↔ ∀ p ∈ parts, p = "" := by
  simp [categories, List.filter_eq_nil_iff]

example : parseProcessName (F := Int) (.processName 1 "clang" [] (some 0) ⟨some [], some 0, none⟩)
    = some "clang" := (c13_process_name_iff _ _).2 ⟨1, 0, rfl, .inl ⟨rfl, rfl⟩⟩

end Verif.Trace
