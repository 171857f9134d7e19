/-
C32: truncated paths.
-/
import Verif.Display.PathModel

set_option autoImplicit false
set_option linter.unusedVariables false
set_option linter.unusedSimpArgs false

namespace Verif.Display

/-- Width of a component with the separator that goes with it. -/
def sepW (M : Metrics) (c : Text) : Nat := M.width c + if c = root then 0 else 1

/-- Total of `sepW`. -/
def sepWs (M : Metrics) (cs : List Text) : Nat := (cs.map (sepW M)).sum

@[simp] theorem sepWs_nil (M : Metrics) : sepWs M [] = 0 := rfl
@[simp] theorem sepWs_cons (M : Metrics) (c : Text) (cs : List Text) :
    sepWs M (c :: cs) = sepW M c + sepWs M cs := by simp [sepWs]
@[simp] theorem sepWs_append (M : Metrics) (a b : List Text) :
    sepWs M (a ++ b) = sepWs M a + sepWs M b := by simp [sepWs]

theorem width_root (M : Metrics) : M.width root = 1 := by simp [root]

theorem sepW_pos (M : Metrics) (c : Text) : 1 ≤ sepW M c := by
  unfold sepW
  split
  · rename_i h; subst h; simp [width_root]
  · omega

theorem front_width (M : Metrics) (F : List Text) :
    M.width (F.flatMap fun c => if c = root then c else c ++ [slash]) = sepWs M F := by
  induction F with
  | nil => rfl
  | cons c F ih =>
    simp only [List.flatMap_cons, Metrics.width_append, ih, sepWs_cons, sepW]
    split <;> simp

theorem back_width (M : Metrics) (B : List Text) (h : ∀ c ∈ B, c ≠ root) :
    M.width (B.flatMap fun c => slash :: c) = sepWs M B := by
  induction B with
  | nil => rfl
  | cons c B ih =>
    simp only [List.flatMap_cons, Metrics.width_append, Metrics.width_cons,
      ih (fun d hd => h d (by simp [hd])), sepWs_cons, sepW,
      if_neg (h c (by simp)), Metrics.w_slash]
    omega

theorem writePath_width (M : Metrics) (cs : List Text) (h : cs ≠ []) (hl : cs ≠ [root])
    (hv : ValidPath cs) : M.width (writePath cs) + 1 = sepWs M cs := by
  induction cs with
  | nil => exact absurd rfl h
  | cons c cs ih =>
    cases cs with
    | nil =>
      have : c ≠ root := by simpa using hl
      simp [writePath, sepW, this]
    | cons d ds =>
      have hd : d ≠ root := hv d (by simp)
      have := ih (by simp) (by simpa using fun h _ => hd h)
        (fun e he => hv e (by simp at he ⊢; exact Or.inr he))
      simp only [writePath, Metrics.width_append] at this ⊢
      rw [sepWs_cons, ← this, sepW]
      split <;> simp <;> omega

/-- Written form of front components, an optional middle, and back components. -/
theorem writePath_split (F : List Text) (m : Text) (B : List Text)
    (hB : ∀ c ∈ B, c ≠ root) (hm : m ≠ root) :
    writePath (F ++ m :: B)
      = (F.flatMap fun c => if c = root then c else c ++ [slash]) ++ m ++
        B.flatMap (fun c => slash :: c) := by
  induction F with
  | nil =>
    simp only [List.nil_append, List.flatMap_nil]
    induction B generalizing m with
    | nil => simp [writePath]
    | cons b B ih =>
      simp only [writePath, if_neg hm, List.flatMap_cons]
      rw [ih b (fun c hc => hB c (by simp [hc])) (hB b (by simp))]
      simp
  | cons c F ih =>
    cases F with
    | nil => simp only [List.nil_append, List.cons_append, writePath] at ih ⊢; rw [ih]; simp
    | cons d F => simp only [List.cons_append, writePath] at ih ⊢; rw [ih]; simp

/-- The written front components end with the separator. -/
theorem front_ends_slash (F : List Text) (h : F ≠ []) :
    ∃ t, (F.flatMap fun c => if c = root then c else c ++ [slash]) = t ++ [slash] := by
  induction F with
  | nil => exact absurd rfl h
  | cons c F ih =>
    cases F with
    | nil =>
      by_cases hc : c = root
      · exact ⟨[], by simp [hc, root]⟩
      · exact ⟨c, by simp [hc]⟩
    | cons d F =>
      obtain ⟨t, ht⟩ := ih (by simp)
      refine ⟨(if c = root then c else c ++ [slash]) ++ t, ?_⟩
      rw [List.flatMap_cons, ht, List.append_assoc]

/-- What `select_components` guarantees. -/
structure Selected (M : Metrics) (comps : List Text) (cols0 : Nat) (F S B : List Text) : Prop where
  split : comps = F ++ S ++ B
  nonroot : ∀ c ∈ B, c ≠ root
  all : S = [] → (F ≠ [] ∧ B ≠ []) ∧ sepWs M F + sepWs M B ≤ cols0 + 1
  elided : S ≠ [] → sepWs M F + sepWs M B + 1 ≤ cols0
  noBack : B = [] → ∃ x, comps.getLast? = some x ∧ cols0 < M.width x + 2

theorem selectLoop_sound (M : Metrics) (comps : List Text) (cols0 : Nat)
    (hv : ValidPath comps) (hn : 2 ≤ comps.length) :
    ∀ (k : Nat) (rest : List Text) (cols : Nat) (F B Sf Sb : List Text) (front full : Bool),
      rest.length = k → comps = F ++ Sf ++ rest ++ Sb ++ B →
      (full = false → Sf = [] ∧ Sb = []) →
      (full = true → front = true → Sf = [] ∧ Sb ≠ []) →
      (full = true → front = false → Sf ≠ [] ∧ Sb = []) →
      (∀ c ∈ B, c ≠ root) →
      (rest ≠ [] ∨ full = true → sepWs M F + sepWs M B + cols = cols0 ∧ 1 ≤ cols) →
      (rest = [] → full = false → sepWs M F + sepWs M B ≤ cols0 + 1) →
      (full = false → B.length = F.length + front.toNat) →
      (B = [] → (full = false ∧ rest = comps) ∨
        (full = true ∧ front = true ∧ ∃ x, comps.getLast? = some x ∧ cols0 < M.width x + 2)) →
      ∃ F' S B', selectLoop M comps.length rest cols F.length B.length front full
          = some (F'.length, B'.length) ∧ Selected M comps cols0 F' S B' := by
  intro k
  induction k with
  | zero =>
    intro rest cols F B Sf Sb front full hk hc h1 h2 h3 hB hcols hall halt hnb
    have hr : rest = [] := by simpa using hk
    subst hr
    refine ⟨F, Sf ++ Sb, B, by rw [selectLoop], ?_⟩
    refine ⟨by simpa using hc, hB, ?_, ?_, ?_⟩
    · intro hS
      have : full = false := by
        cases full <;> cases front <;> simp_all
      have hl := halt this
      refine ⟨?_, hall rfl this⟩
      have h1 := h1 this
      have hcl := congrArg List.length hc
      simp only [List.length_append, h1.1, h1.2, List.length_nil] at hcl
      have : front.toNat ≤ 1 := by cases front <;> simp
      constructor
      · rintro rfl; simp only [List.length_nil] at hcl hl; omega
      · rintro rfl; simp only [List.length_nil] at hcl hl; omega
    · intro hS
      have : full = true := by
        cases full
        · have := h1 rfl; simp_all
        · rfl
      have := hcols (Or.inr this)
      omega
    · intro hb
      rcases hnb hb with ⟨_, h⟩ | ⟨_, _, h⟩
      · rw [← h] at hn; simp at hn
      · exact h
  | succ k ih =>
    intro rest cols F B Sf Sb front full hk hc h1 h2 h3 hB hcols hall halt hnb
    obtain ⟨c, r, rfl⟩ : ∃ c r, rest = c :: r := by
      cases rest with
      | nil => simp at hk
      | cons c r => exact ⟨c, r, rfl⟩
    obtain ⟨hacc, hpos⟩ := hcols (Or.inl (by simp))
    have hlen := congrArg List.length hc
    simp only [List.length_append, List.length_cons] at hlen
    simp only [List.length_cons] at hk
    -- the last candidate
    have hlast : (F.length + B.length == comps.length - 1) = true ↔ (full = false ∧ r = []) := by
      simp only [beq_iff_eq]
      constructor
      · intro h
        cases full with
        | false => obtain ⟨a, b⟩ := h1 rfl; subst a b; simp at hlen ⊢; rw [← List.length_eq_zero_iff]; omega
        | true =>
          exfalso
          cases front with
          | true => have := List.length_pos_of_ne_nil (h2 rfl rfl).2; omega
          | false => have := List.length_pos_of_ne_nil (h3 rfl rfl).1; omega
      · rintro ⟨hf, rfl⟩
        obtain ⟨a, b⟩ := h1 hf; subst a b; simp at hlen; omega
    -- the candidate and what remains
    obtain ⟨cand, rest', hcand, hrest', hcr, hbroot⟩ : ∃ (cand : Text) (rest' : List Text),
        (if front = true then c else (c :: r).getLast (by simp)) = cand ∧
        (if front = true then r else (c :: r).dropLast) = rest' ∧
        (c :: r = if front = true then cand :: rest' else rest' ++ [cand]) ∧
        (front = false → cand ≠ root) := by
      cases front with
      | true => exact ⟨c, r, rfl, rfl, rfl, by simp⟩
      | false =>
        refine ⟨_, _, rfl, rfl, ?_, ?_⟩
        · simp [List.dropLast_append_getLast]
        · intro _
          simp only [Bool.false_eq_true, if_false]
          apply hv
          by_cases hFS : F ++ Sf = []
          · have hFn : F = [] := (List.append_eq_nil_iff.1 hFS).1
            have hSn : Sf = [] := (List.append_eq_nil_iff.1 hFS).2
            have hfull : full = false := by
              cases full with
              | false => rfl
              | true => exact absurd hSn (h3 rfl rfl).1
            have hl := halt hfull
            rw [hFn] at hl
            have hBn : B = [] := by simpa using hl
            have hSb : Sb = [] := (h1 hfull).2
            rw [hFn, hSn, hBn, hSb] at hc
            simp only [List.append_nil, List.nil_append] at hc
            subst hc
            simp only [List.tail_cons]
            cases r with
            | nil => simp at hn
            | cons d r => rw [List.getLast_cons (by simp)]; exact List.getLast_mem _
          · obtain ⟨a, t, hat⟩ : ∃ a t, F ++ Sf = a :: t := by
              cases hx : F ++ Sf with
              | nil => exact absurd hx hFS
              | cons a t => exact ⟨a, t, rfl⟩
            rw [hc, hat]
            simp only [List.cons_append, List.tail_cons, List.append_assoc]
            have hm : (c :: r).getLast (by simp) ∈ c :: r := List.getLast_mem _
            rw [List.mem_append, ← List.cons_append, List.mem_append]
            exact Or.inr (Or.inl hm)
    have hk' : rest'.length = k := by
      rw [← hrest']; cases front <;> simp <;> omega
    have hrnil : r = [] ↔ rest' = [] := by
      rw [← List.length_eq_zero_iff, ← List.length_eq_zero_iff]; omega
    rw [selectLoop]
    simp only [hcand, hrest']
    generalize hil : (F.length + B.length == comps.length - 1) = isLast at *
    have hu : ¬ cols < (!isLast).toNat := by cases isLast <;> simp <;> omega
    rw [if_neg hu]
    generalize hw : M.width cand + (!(isLast || cand == root)).toNat = w at *
    have hwle : w ≤ sepW M cand := by
      rw [← hw, sepW]
      by_cases hr : cand = root <;> cases isLast <;> simp [hr, beq_false_of_ne]
    have hwge : sepW M cand ≤ w + isLast.toNat := by
      rw [← hw, sepW]
      by_cases hr : cand = root <;> cases isLast <;> simp [hr, beq_false_of_ne]
    by_cases hfit : w ≤ cols - (!isLast).toNat
    · -- accepted
      simp only [decide_eq_true hfit, Bool.true_and, Bool.not_true, if_true, Bool.false_eq_true, if_false]
      cases front with
      | true =>
        simp only [if_true, Bool.not_true, Bool.false_eq_true, if_false]
        have hcr' : c :: r = cand :: rest' := by simpa using hcr
        have hSf : Sf = [] := by
          cases full with
          | false => exact (h1 rfl).1
          | true => exact (h2 rfl rfl).1
        have := ih rest' (cols - w) (F ++ [cand]) B Sf Sb (true ^^ !full) full hk'
          (by rw [hc, hcr', hSf]; simp) h1
          (by intro a _; exact h2 a rfl) (by intro a b; subst a; simp at b) hB
          (by
            intro h
            have hil' : isLast = false := by
              cases isLast with
              | false => rfl
              | true =>
                have := hlast.1 rfl
                rcases h with h | h
                · exact absurd (hrnil.1 this.2) h
                · rw [this.1] at h; cases h
            subst hil'
            simp only [Bool.not_false, Bool.toNat_true, Bool.toNat_false] at hfit hwge
            rw [sepWs_append, sepWs_cons, sepWs_nil]
            omega)
          (by
            intro hr0 hf
            have hil' : isLast = true := hlast.2 ⟨hf, hrnil.2 hr0⟩
            subst hil'
            simp only [Bool.not_true, Bool.toNat_true, Bool.toNat_false] at hfit hwge
            rw [sepWs_append, sepWs_cons, sepWs_nil]
            omega)
          (by intro hf; have := halt hf; subst hf; simp at this ⊢; omega)
          (by
            intro hb
            rcases hnb hb with ⟨hf, h⟩ | ⟨hf, hfr, h⟩
            · have := halt hf; rw [hb] at this; simp at this
            · exact Or.inr ⟨hf, by subst hf; rfl, h⟩)
        simpa using this
      | false =>
        simp only [Bool.false_eq_true, if_false, Bool.not_false, if_true]
        have hcr' : c :: r = rest' ++ [cand] := by simpa using hcr
        have hSb : Sb = [] := by
          cases full with
          | false => exact (h1 rfl).2
          | true => exact (h3 rfl rfl).2
        have hcroot := hbroot rfl
        have := ih rest' (cols - w) F (cand :: B) Sf Sb (false ^^ !full) full hk'
          (by rw [hc, hcr', hSb]; simp) h1
          (by intro a b; subst a; simp at b) (by intro a _; exact h3 a rfl)
          (by intro d hd; rcases List.mem_cons.1 hd with rfl | hd; exacts [hcroot, hB d hd])
          (by
            intro h
            have hil' : isLast = false := by
              cases isLast with
              | false => rfl
              | true =>
                have := hlast.1 rfl
                rcases h with h | h
                · exact absurd (hrnil.1 this.2) h
                · rw [this.1] at h; cases h
            subst hil'
            simp only [Bool.not_false, Bool.toNat_true, Bool.toNat_false] at hfit hwge
            rw [sepWs_cons]
            omega)
          (by
            intro hr0 hf
            have hil' : isLast = true := hlast.2 ⟨hf, hrnil.2 hr0⟩
            subst hil'
            simp only [Bool.not_true, Bool.toNat_true, Bool.toNat_false] at hfit hwge
            rw [sepWs_cons]
            omega)
          (by intro hf; have := halt hf; subst hf; simp at this ⊢; omega)
          (by intro hb; cases hb)
        simpa using this
    · -- rejected
      simp only [decide_eq_false hfit, Bool.false_and, Bool.not_false, if_true, Bool.false_eq_true, if_false]
      cases full with
      | true =>
        simp only [if_true]
        refine ⟨F, Sf ++ (c :: r) ++ Sb, B, rfl, ?_⟩
        refine ⟨by rw [hc]; simp, hB, by simp, fun _ => by omega, ?_⟩
        intro hb
        rcases hnb hb with ⟨hf, _⟩ | ⟨_, _, h⟩
        · cases hf
        · exact h
      | false =>
        simp only [Bool.false_eq_true, if_false, Bool.not_false]
        obtain ⟨hSf, hSb⟩ := h1 rfl
        have hl := halt rfl
        cases front with
        | true =>
          have hcr' : c :: r = cand :: rest' := by simpa using hcr
          exact ih rest' cols F B [cand] [] (true ^^ true) true hk'
            (by rw [hc, hcr', hSf, hSb]; simp) (by simp) (by simp) (by simp) hB
            (fun _ => ⟨hacc, hpos⟩) (by simp) (by simp)
            (by
              intro hb
              rw [hb] at hl; simp at hl)
        | false =>
          have hcr' : c :: r = rest' ++ [cand] := by simpa using hcr
          refine ih rest' cols F B [] [cand] (false ^^ true) true hk'
            (by rw [hc, hcr', hSf, hSb]; simp) (by simp) (by simp) (by simp) hB
            (fun _ => ⟨hacc, hpos⟩) (by simp) (by simp) ?_
          intro hb
          right
          refine ⟨rfl, rfl, cand, ?_, ?_⟩
          · rw [hc, hcr', hb, hSb, hSf]; simp
          · have hF : F = [] := by rw [hb] at hl; simpa using hl.symm
            have hcroot := hbroot rfl
            have hil' : isLast = false := by
              cases isLast with
              | false => rfl
              | true =>
                obtain ⟨_, hr0⟩ := hlast.1 rfl
                simp [hF, hSf, hSb, hb, hr0] at hlen
                omega
            subst hil'
            simp only [Bool.not_false, Bool.toNat_true, Bool.toNat_false, Nat.add_zero] at hfit hwle
            simp only [sepW, if_neg hcroot] at hwle
            rw [hb, hF] at hacc
            simp only [sepWs_nil] at hacc
            omega

theorem sepWs_length (M : Metrics) (cs : List Text) : cs.length ≤ sepWs M cs := by
  induction cs with
  | nil => simp
  | cons c cs ih => have := sepW_pos M c; simp; omega

/-- When everything fits, everything is selected. -/
theorem selectLoop_complete (M : Metrics) (comps : List Text) (cols0 : Nat)
    (hv : ValidPath comps) (hn : 2 ≤ comps.length) (hx : ∀ x, comps ≠ [root, x])
    (hw1 : ∀ c ∈ comps, 1 ≤ M.width c) (htot : sepWs M comps ≤ cols0 + 1) :
    ∀ (k : Nat) (rest : List Text) (cols : Nat) (F B : List Text) (front : Bool),
      rest.length = k → comps = F ++ rest ++ B →
      (rest ≠ [] → sepWs M F + sepWs M B + cols = cols0) →
      B.length = F.length + front.toNat →
      ∃ F' B', selectLoop M comps.length rest cols F.length B.length front false
          = some (F'.length, B'.length) ∧ comps = F' ++ B' := by
  intro k
  induction k with
  | zero =>
    intro rest cols F B front hk hc hacc hl
    have hr : rest = [] := by simpa using hk
    subst hr
    exact ⟨F, B, by rw [selectLoop], by simpa using hc⟩
  | succ k ih =>
    intro rest cols F B front hk hc hacc hl
    obtain ⟨c, r, rfl⟩ : ∃ c r, rest = c :: r := by
      cases rest with
      | nil => simp at hk
      | cons c r => exact ⟨c, r, rfl⟩
    have hacc := hacc (by simp)
    have hlen := congrArg List.length hc
    simp only [List.length_append, List.length_cons] at hlen
    simp only [List.length_cons] at hk
    have hnr : F ≠ [] → ∀ d ∈ c :: r, d ≠ root := by
      intro hF d hd
      apply hv
      obtain ⟨a, t, rfl⟩ := List.exists_cons_of_ne_nil hF
      rw [hc]; simp only [List.cons_append, List.tail_cons, List.mem_append]
      exact Or.inl (Or.inr hd)
    have hw1' : ∀ d ∈ c :: r, 1 ≤ M.width d := by
      intro d hd; apply hw1; rw [hc]; simp only [List.mem_append]; exact Or.inl (Or.inr hd)
    have htot' : sepWs M (c :: r) ≤ cols + 1 := by
      rw [hc, sepWs_append, sepWs_append] at htot; omega
    obtain ⟨cand, rest', hcand, hrest', hcr⟩ : ∃ (cand : Text) (rest' : List Text),
        (if front = true then c else (c :: r).getLast (by simp)) = cand ∧
        (if front = true then r else (c :: r).dropLast) = rest' ∧
        (c :: r = if front = true then cand :: rest' else rest' ++ [cand]) := by
      cases front with
      | true => exact ⟨c, r, rfl, rfl, rfl⟩
      | false => exact ⟨_, _, rfl, rfl, by simp [List.dropLast_append_getLast]⟩
    have hk' : rest'.length = k := by
      rw [← hrest']; cases front <;> simp <;> omega
    have hmem : cand ∈ c :: r ∧ ∀ d ∈ rest', d ∈ c :: r := by
      rw [hcr]; cases front
      · simp; exact fun d hd => Or.inl hd
      · simp; exact fun d hd => Or.inr hd
    have hsum : sepWs M (c :: r) = sepW M cand + sepWs M rest' := by
      rw [hcr]; cases front <;> simp [Nat.add_comm]
    rw [hsum] at htot'
    have hFbool : front.toNat ≤ 1 := by cases front <;> simp
    rw [selectLoop]
    simp only [hcand, hrest']
    have key : cols ≥ (!(F.length + B.length == comps.length - 1)).toNat ∧
        M.width cand + (!((F.length + B.length == comps.length - 1) || cand == root)).toNat
          ≤ cols - (!(F.length + B.length == comps.length - 1)).toNat ∧
        (rest' ≠ [] → M.width cand + (!((F.length + B.length == comps.length - 1) || cand == root)).toNat
          = sepW M cand) := by
      by_cases hil : F.length + B.length = comps.length - 1
      · have hr0 : rest' = [] := by rw [← List.length_eq_zero_iff]; omega
        simp only [beq_iff_eq.2 hil, Bool.not_true, Bool.toNat_false, Bool.true_or, hr0]
        have hcroot : cand ≠ root := by
          rintro hcroot
          by_cases hF : F = []
          · subst hF
            simp at hl hlen
            have hr1 : r = [] := by rw [← List.length_eq_zero_iff]; rw [hr0] at hk'; simp at hk'; omega
            subst hr1
            have hcc : c = cand := by rw [← hcand]; cases front <;> simp
            have hB1 : B.length = 1 := by simp at hlen; omega
            obtain ⟨b, rfl⟩ := List.length_eq_one_iff.1 hB1
            exact hx b (by rw [hc, hcc, hcroot]; rfl)
          · exact hnr hF cand hmem.1 hcroot
        have : sepW M cand = M.width cand + 1 := by simp [sepW, hcroot]
        refine ⟨by omega, by omega, by simp⟩
      · have hr0 : rest' ≠ [] := by rw [Ne, ← List.length_eq_zero_iff]; omega
        have h2 : 2 ≤ sepWs M rest' := by
          by_cases h2l : 2 ≤ rest'.length
          · have := sepWs_length M rest'; omega
          · have h1l : rest'.length = 1 := by
              have := List.length_pos_of_ne_nil hr0; omega
            obtain ⟨d, hd⟩ := List.length_eq_one_iff.1 h1l
            have hdroot : d ≠ root := by
              rintro rfl
              by_cases hF : F = []
              · subst hF
                simp at hl
                cases front with
                | true =>
                  -- the root would not be first
                  have : c :: r = [cand, root] := by simpa [hd] using hcr
                  apply hv root _ rfl
                  rw [hc, this]; simp
                | false =>
                  have : c :: r = [root, cand] := by simpa [hd] using hcr
                  have hB0 : B = [] := by simpa using hl
                  exact hx cand (by rw [hc, this, hB0]; rfl)
              · exact hnr hF root (hmem.2 root (by simp [hd])) rfl
            rw [hd]; simp only [sepWs_cons, sepWs_nil, sepW, if_neg hdroot]
            have := hw1' d (hmem.2 d (by simp [hd]))
            omega
        have hsep : M.width cand + (!(cand == root)).toNat = sepW M cand := by
          by_cases hr : cand = root <;> simp [sepW, hr, beq_false_of_ne]
        have hpos := sepW_pos M cand
        simp only [beq_false_of_ne hil, Bool.not_false, Bool.toNat_true, Bool.false_or, hsep]
        exact ⟨by omega, by omega, by simp⟩
    obtain ⟨k1, k2, k3⟩ := key
    rw [if_neg (by omega)]
    simp only [decide_eq_true k2, Bool.true_and, Bool.not_true, if_true, Bool.false_eq_true, if_false,
      Bool.not_false]
    generalize M.width cand + (!((F.length + B.length == comps.length - 1) || cand == root)).toNat = w at *
    generalize (F.length + B.length == comps.length - 1) = il at *
    cases front with
    | true =>
      have hcr' : c :: r = cand :: rest' := by simpa using hcr
      have := ih rest' (cols - w) (F ++ [cand]) B (true ^^ true) hk' (by rw [hc, hcr']; simp)
        (by intro h; rw [sepWs_append, sepWs_cons, sepWs_nil, ← k3 h]; omega)
        (by simp at hl ⊢; omega)
      simpa using this
    | false =>
      have hcr' : c :: r = rest' ++ [cand] := by simpa using hcr
      have := ih rest' (cols - w) F (cand :: B) (false ^^ true) hk' (by rw [hc, hcr']; simp)
        (by intro h; rw [sepWs_cons, ← k3 h]; omega)
        (by simp at hl ⊢; omega)
      simpa using this

/-! ### File names -/

theorem takeFront_spec (M : Metrics) (t : Text) (cols : Nat) :
    ∃ a c r, takeFront M t cols = (a, c, r) ∧ c ≤ cols ∧ M.width a = cols - c ∧
      (t = a ∧ r = [] ∨ ∃ g, t = a ++ g :: r ∧ c < M.w g) := by
  induction t generalizing cols with
  | nil => exact ⟨[], cols, [], rfl, Nat.le_refl _, by simp, Or.inl ⟨rfl, rfl⟩⟩
  | cons g t ih =>
    unfold takeFront
    by_cases h : M.w g ≤ cols
    · obtain ⟨a, c, r, he, hc, hw, hs⟩ := ih (cols - M.w g)
      refine ⟨g :: a, c, r, by simp [h, he], by omega, by simp [hw]; omega, ?_⟩
      rcases hs with ⟨rfl, rfl⟩ | ⟨g', rfl, hg'⟩
      · exact Or.inl ⟨rfl, rfl⟩
      · exact Or.inr ⟨g', rfl, hg'⟩
    · exact ⟨[], cols, t, by simp [h], Nat.le_refl _, by simp, Or.inr ⟨g, rfl, by omega⟩⟩

theorem takeBack_spec (M : Metrics) (t : Text) (cols : Nat) :
    ∃ s, t = takeBack M t cols ++ s ∧ M.width (takeBack M t cols) ≤ cols := by
  induction t generalizing cols with
  | nil => exact ⟨[], rfl, by simp [takeBack]⟩
  | cons g t ih =>
    unfold takeBack
    by_cases h : M.w g ≤ cols
    · obtain ⟨s, hs, hw⟩ := ih (cols - M.w g)
      rw [if_pos h]
      exact ⟨s, by conv_lhs => rw [hs]
                   rfl, by simp; omega⟩
    · rw [if_neg h]; exact ⟨g :: t, rfl, by simp⟩

theorem displayFilename_spec (M : Metrics) (name : Text) (cols : Nat) (h3 : 3 ≤ cols)
    (hlt : cols < M.width name + 2) :
    ∃ a m b, name = a ++ m ++ b ∧ m ≠ [] ∧
      displayFilename M name cols = some ([ellipsis, slash] ++ a ++ [ellipsis] ++ b) ∧
      M.width ([ellipsis, slash] ++ a ++ [ellipsis] ++ b) ≤ cols := by
  obtain ⟨a, c, r, he, hc, hw, hs⟩ := takeFront_spec M name ((cols - 3) / 2)
  obtain ⟨s, hs', hw'⟩ := takeBack_spec M r.reverse (cols - 3 - ((cols - 3) / 2 - c))
  rcases hs with ⟨rfl, rfl⟩ | ⟨g, hname, hg⟩
  · exfalso; omega
  · refine ⟨a, g :: s.reverse, (takeBack M r.reverse (cols - 3 - ((cols - 3) / 2 - c))).reverse,
      ?_, by simp, ?_, ?_⟩
    · rw [hname, List.append_assoc]
      congr 1
      have := congrArg List.reverse hs'
      simp only [List.reverse_reverse, List.reverse_append] at this
      conv_lhs => rw [this]
      rfl
    · simp only [displayFilename]
      rw [if_neg (by omega)]
      simp only [he]
    · simp only [Metrics.width_append, Metrics.width_cons, Metrics.w_ellipsis, Metrics.w_slash,
        Metrics.width_nil, Metrics.width_reverse, hw]
      omega

/-! ### The property -/

/-- The four shapes a displayed path can take, for a path with components
`comps`. -/
inductive PathShown (comps : List Text) : Text → Prop
  /-- the whole path -/
  | whole : PathShown comps (writePath comps)
  /-- a non-empty run of components replaced by one `…` component, everything
  before and after it in place; the file name is shown -/
  | elided (pre mid suf : List Text) : comps = pre ++ mid ++ suf → mid ≠ [] → suf ≠ [] →
      PathShown comps (writePath (pre ++ [[ellipsis]] ++ suf))
  /-- all directories replaced by `…`, and a non-empty part of the file name
  replaced by a second `…` -/
  | file (name a m b : Text) : comps.getLast? = some name → name = a ++ m ++ b → m ≠ [] →
      PathShown comps (writePath [[ellipsis], a ++ [ellipsis] ++ b])
  /-- a lone ellipsis -/
  | nothing : PathShown comps [ellipsis]

theorem ellipsis_ne_root : ([ellipsis] : Text) ≠ root := by decide

theorem displayComponents_elided (F S B : List Text) (hS : S ≠ []) (hB : ∀ c ∈ B, c ≠ root) :
    displayComponents (F ++ S ++ B) F.length B.length
      = some (writePath (F ++ [[ellipsis]] ++ B)) := by
  have hSl := List.length_pos_of_ne_nil hS
  unfold displayComponents
  simp only [List.length_append]
  rw [if_neg (by omega), if_neg (by omega)]
  rw [if_pos (by omega)]
  have h1 : (F ++ S ++ B).take F.length = F := by simp
  have h2 : ((F ++ S ++ B).drop (F.length + (F.length + S.length + B.length - (F.length + B.length)))).take
      B.length = B := by
    have : F.length + (F.length + S.length + B.length - (F.length + B.length)) = (F ++ S).length := by
      simp; omega
    rw [this]; simp
  have h3 : F ++ [[ellipsis]] ++ B = F ++ [ellipsis] :: B := by simp
  rw [h1, h2, h3, writePath_split F [ellipsis] B hB ellipsis_ne_root]

theorem displayComponents_all (F B : List Text) (hF : F ≠ []) (hB0 : B ≠ []) (hB : ∀ c ∈ B, c ≠ root) :
    displayComponents (F ++ B) F.length B.length = some (writePath (F ++ B)) := by
  unfold displayComponents
  simp only [List.length_append]
  rw [if_neg (by omega), if_neg (by omega)]
  rw [if_neg (by omega)]
  have h1 : (F ++ B).take F.length = F := by simp
  have h2 : ((F ++ B).drop (F.length + (F.length + B.length - (F.length + B.length)))).take
      B.length = B := by simp
  rw [h1, h2]
  obtain ⟨b, B', rfl⟩ := List.exists_cons_of_ne_nil hB0
  obtain ⟨t, ht⟩ := front_ends_slash F hF
  rw [writePath_split F b B' (fun c hc => hB c (by simp [hc])) (hB b (by simp)), ht]
  simp

theorem slash_mem_writePath (cs : List Text) (h : 2 ≤ cs.length) : slash ∈ writePath cs := by
  match cs, h with
  | c :: d :: cs, _ =>
    simp only [writePath, List.mem_append]
    left
    split
    · rename_i hc; simp [hc, root]
    · simp

/-- A file directly under the root is selected whole when it fits with a column
to spare. -/
theorem selectComponents_root_file (M : Metrics) (x : Text) (cols : Nat) (hx : x ≠ root)
    (h : M.width x + 2 ≤ cols) : selectComponents M [root, x] cols = some (1, 1) := by
  have hx' : (x == root) = false := beq_false_of_ne hx
  unfold selectComponents
  rw [selectLoop]
  simp only [Bool.false_eq_true, if_false, List.getLast_cons_cons, List.getLast_singleton,
    List.dropLast_cons₂, List.dropLast_singleton, List.length_cons, List.length_nil, hx']
  simp only [Nat.zero_add, Nat.add_zero, Nat.reduceAdd, Nat.reduceSub, Nat.reduceBEq, Bool.or_false, Bool.not_false,
    Bool.toNat_true]
  rw [if_neg (by omega)]
  rw [if_neg (by simp; omega)]
  simp only [decide_eq_true (show M.width x + 1 ≤ cols - 1 by omega), Bool.true_and, if_true]
  rw [selectLoop]
  simp only [Bool.false_eq_true, if_false, Bool.xor_true, Bool.not_false, if_true, Nat.zero_add,
    Nat.reduceBEq, BEq.rfl, Bool.true_or, Bool.not_true, Bool.toNat_false, width_root, Nat.add_zero,
    Nat.sub_zero]
  rw [if_neg (by omega)]
  simp only [decide_eq_true (show 1 ≤ cols - (M.width x + 1) by omega), Bool.not_true,
    Bool.false_eq_true, if_false, Bool.true_and, if_true, Bool.and_false, Bool.xor_true]
  rw [selectLoop]

/-- C32. Every path of at least two components (so every absolute path other
than the root itself), in every number of columns ≥ 1: displaying it does not
panic, the result is at most that wide and has one of the four shapes above.
It is the whole path whenever that fits with one column to spare; an exact fit is
also enough, except for a file directly under the root. A lone ellipsis is shown
only below 17 columns. -/
theorem truncatePath_spec (M : Metrics) (comps : List Text) (cols : Nat)
    (hv : ValidPath comps) (hn : 2 ≤ comps.length) (hc : 1 ≤ cols) :
    ∃ out, truncatePath M comps cols = some out ∧ M.width out ≤ cols ∧ PathShown comps out ∧
      ((∀ c ∈ comps, 1 ≤ M.width c) → M.width (writePath comps) < cols → out = writePath comps) ∧
      ((∀ c ∈ comps, 1 ≤ M.width c) → M.width (writePath comps) ≤ cols →
        (∀ x, comps ≠ [root, x]) → out = writePath comps) ∧
      (17 ≤ cols → out ≠ [ellipsis]) := by
  obtain ⟨F, S, B, hsel, hS⟩ := selectLoop_sound M comps cols hv hn comps.length comps cols [] [] [] []
    false false rfl (by simp) (by simp) (by simp) (by simp) (by simp) (by simp; exact fun _ => hc)
    (by intro h; rw [h] at hn; simp at hn) (by simp) (by simp)
  have hsel' : selectComponents M comps cols = some (F.length, B.length) := hsel
  have hcne : comps ≠ [] := by rintro rfl; simp at hn
  have hcr : comps ≠ [root] := by rintro rfl; simp at hn
  have hww := writePath_width M comps hcne hcr hv
  -- when it fits, everything is selected
  have hcomp : (∀ c ∈ comps, 1 ≤ M.width c) → M.width (writePath comps) ≤ cols →
      (∀ x, comps ≠ [root, x]) → S = [] := by
    intro h1 h2 h3
    obtain ⟨F', B', hsel2, hFB⟩ := selectLoop_complete M comps cols hv hn h3 h1 (by omega)
      comps.length comps cols [] [] false rfl (by simp) (by simp) (by simp)
    have : selectComponents M comps cols = some (F'.length, B'.length) := hsel2
    rw [hsel'] at this
    injection this with this
    injection this with e1 e2
    have l1 := congrArg List.length hFB
    have l2 := congrArg List.length hS.split
    simp only [List.length_append] at l1 l2
    rw [← List.length_eq_zero_iff]; omega
  have hcomp' : (∀ c ∈ comps, 1 ≤ M.width c) → M.width (writePath comps) < cols → S = [] := by
    intro h1 h2
    by_cases h3 : ∀ x, comps ≠ [root, x]
    · exact hcomp h1 (by omega) h3
    · obtain ⟨x, hx⟩ : ∃ x, comps = [root, x] := by
        by_contra hcon; exact h3 fun x hx => hcon ⟨x, hx⟩
      have hxr : x ≠ root := hv x (by simp [hx])
      have hs2 := selectComponents_root_file M x cols hxr (by
        rw [hx] at h2; simp [writePath, width_root] at h2; omega)
      rw [← hx, hsel'] at hs2
      injection hs2 with this
      injection this with e1 e2
      have l2 := congrArg List.length hS.split
      rw [hx] at l2
      simp only [List.length_append, List.length_cons, List.length_nil] at l2
      rw [← List.length_eq_zero_iff]; omega
  by_cases hSn : S = []
  · -- everything shown
    obtain ⟨⟨hF, hBn⟩, hle⟩ := hS.all hSn
    · have hd := displayComponents_all F B hF hBn hS.nonroot
      have hsp : comps = F ++ B := by have := hS.split; rw [hSn] at this; simpa using this
      rw [← hsp] at hd
      have hwid : M.width (writePath comps) ≤ cols := by
        rw [hsp, sepWs_append] at hww; rw [hsp]; omega
      refine ⟨writePath comps, ?_, hwid, .whole, fun _ _ => rfl, fun _ _ _ => rfl, ?_⟩
      · unfold truncatePath
        rw [if_neg (by omega), hsel']
        simp only [hd]
        rw [if_pos (List.length_pos_of_ne_nil hBn)]
        simp only [hwid, if_true]
      · intro _ he
        have := slash_mem_writePath comps hn
        rw [he] at this
        exact absurd this (by decide)
  · by_cases hBn : B = []
    · obtain ⟨x, hx, hwx⟩ := hS.noBack hBn
      by_cases h17 : 17 ≤ cols
      · obtain ⟨a, m, b, hname, hm, hdf, hdw⟩ := displayFilename_spec M x cols (by omega) hwx
        have heq : [ellipsis, slash] ++ a ++ [ellipsis] ++ b
            = writePath [[ellipsis], a ++ [ellipsis] ++ b] := by
          simp [writePath, ellipsis_ne_root]
        rw [heq] at hdf hdw
        refine ⟨_, ?_, hdw, .file x a m b hx hname hm, fun h1 h2 => absurd (hcomp' h1 h2) hSn,
          fun h1 h2 h3 => absurd (hcomp h1 h2 h3) hSn, ?_⟩
        · unfold truncatePath
          rw [if_neg (by omega), hsel']
          simp only [hBn, List.length_nil, Nat.lt_irrefl, gt_iff_lt, if_false]
          rw [if_pos (show cols ≥ minFilenameWidth + 2 from h17)]
          simp only [hx, hdf, hdw, if_true]
        · intro _ he
          have := slash_mem_writePath [[ellipsis], a ++ [ellipsis] ++ b] (by simp)
          rw [he] at this
          exact absurd this (by decide)
      · refine ⟨[ellipsis], ?_, by simpa using hc, .nothing, fun h1 h2 => absurd (hcomp' h1 h2) hSn,
          fun h1 h2 h3 => absurd (hcomp h1 h2 h3) hSn, fun h => absurd h h17⟩
        unfold truncatePath
        rw [if_neg (by omega), hsel']
        simp only [hBn, List.length_nil, Nat.lt_irrefl, gt_iff_lt, if_false]
        rw [if_neg (show ¬ cols ≥ minFilenameWidth + 2 from h17)]
        simp [show 1 ≤ cols from hc]
    · have hd := displayComponents_elided F S B hSn hS.nonroot
      rw [← hS.split] at hd
      have hwid : M.width (writePath (F ++ [[ellipsis]] ++ B)) ≤ cols := by
        have h3 : F ++ [[ellipsis]] ++ B = F ++ [ellipsis] :: B := by simp
        rw [h3, writePath_split F _ B hS.nonroot ellipsis_ne_root, Metrics.width_append,
          Metrics.width_append, front_width, back_width M B hS.nonroot]
        have := hS.elided hSn
        simp; omega
      refine ⟨_, ?_, hwid, .elided F S B hS.split hSn hBn, fun h1 h2 => absurd (hcomp' h1 h2) hSn,
          fun h1 h2 h3 => absurd (hcomp h1 h2 h3) hSn, ?_⟩
      · unfold truncatePath
        rw [if_neg (by omega), hsel']
        simp only [hd]
        rw [if_pos (List.length_pos_of_ne_nil hBn)]
        simp only [hwid, if_true]
      · intro _ he
        have := slash_mem_writePath (F ++ [[ellipsis]] ++ B)
          (by have := List.length_pos_of_ne_nil hBn; simp; omega)
        rw [he] at this
        exact absurd this (by decide)

-- the hypotheses are met; all four shapes occur
example : ValidPath [root, lit "usr", lit "include", lit "stuff.h"] := by
  unfold ValidPath; decide
example : truncatePath .unit [root, lit "usr", lit "include", lit "stuff.h"] 20
    = some (lit "/usr/include/stuff.h") := by decide +kernel
example : truncatePath .unit [root, lit "usr", lit "include", lit "stuff.h"] 14
    = some (lit "/usr/…/stuff.h") := by decide +kernel
example : truncatePath .unit [root, lit "usr", lit "include", lit "stuff.h"] 8
    = some (lit "…") := by decide +kernel
example : truncatePath .unit [root, lit "a", lit "WowSuchALongHeaderName.hpp"] 17
    = some (lit "…/WowSuch…ame.hpp") := by decide +kernel
example : truncatePath .wide [lit "日本", lit "語", lit "x.h"] 9
    = some (lit "…/語/x.h") := by decide +kernel

/-! ### Where the code falls short -/

/-- C52 (violated). A path of one component, such as a source file at the top of
the project, is displayed with a spurious leading `/` when there is room for it,
and makes the width assertion fail when the path fits exactly. -/
theorem truncatePath_single_refuted (M : Metrics) (x : Text) (cols : Nat) :
    (M.width x < cols → truncatePath M [x] cols = some (slash :: x)) ∧
    (1 ≤ cols → M.width x = cols → truncatePath M [x] cols = none) := by
  have hsel : 1 ≤ cols → M.width x ≤ cols → selectComponents M [x] cols = some (0, 1) := by
    intro h1 h2
    unfold selectComponents
    rw [selectLoop]
    simp [h2]
    rw [selectLoop]
  have hd : displayComponents [x] 0 1 = some (slash :: x) := by simp [displayComponents]
  constructor
  · intro h
    unfold truncatePath
    rw [if_neg (by omega), hsel (by omega) (by omega)]
    simp [hd]; omega
  · intro h1 h
    unfold truncatePath
    rw [if_neg (by omega), hsel (by omega) (by omega)]
    simp [hd]; omega

example : truncatePath .unit [lit "main.cpp"] 40 = some (lit "/main.cpp") := by decide +kernel

/-- C32, why the exact fit excludes files directly under the root: such a path
is shortened although it fits. -/
theorem truncatePath_root_file_exact (M : Metrics) (x : Text) (hx : x ≠ root)
    (hw : 1 ≤ M.width x) (hw' : M.width x < 16) :
    M.width (writePath [root, x]) = M.width x + 1 ∧
    truncatePath M [root, x] (M.width x + 1) = some [ellipsis] := by
  refine ⟨by simp [writePath, width_root]; omega, ?_⟩
  have hx' : (x == root) = false := beq_false_of_ne hx
  have hsel : selectComponents M [root, x] (M.width x + 1) = some (1, 0) := by
    unfold selectComponents
    rw [selectLoop]
    have e : ¬ (M.width x + 1 ≤ M.width x) := by omega
    simp [hx', e]
    rw [selectLoop]
    simp [width_root, hw]
    rw [selectLoop]
  unfold truncatePath
  rw [if_neg (by omega), hsel]
  have e : ¬ (M.width x + 1 ≥ minFilenameWidth + 2) := by unfold minFilenameWidth; omega
  simp only [Nat.lt_irrefl, gt_iff_lt, if_false, if_neg e]
  simp

/-- An empty path (relative path of a file equal to the base directory) makes
the display panic from 17 columns on. -/
theorem truncatePath_empty (M : Metrics) (cols : Nat) (h : 17 ≤ cols) :
    truncatePath M [] cols = none := by
  unfold truncatePath selectComponents
  rw [if_neg (by omega), selectLoop]
  have e : cols ≥ minFilenameWidth + 2 := h
  simp [e]

end Verif.Display
