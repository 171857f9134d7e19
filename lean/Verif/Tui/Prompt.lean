import Verif.Build.Database

/-!
# C45: existing profiles are never overwritten silently (and C57: what the prompt says)

`CreatePrompt` of src/ui/tui/create.rs and its two users: `update_profile`
(src/ui/tui/build/mod.rs 84-121) and `show_wizard` (src/ui/tui/trace/measure.rs 22-102).
-/

set_option autoImplicit false
set_option linter.unusedVariables false
set_option linter.unusedSimpArgs false

namespace Verif.Tui.Prompt

open Verif.Build (Freshness IoErr productFreshness)

/-- create.rs 11-23. Simplification: only the age part of the question is kept, see `ageText`. -/
structure CreatePrompt where
  /-- age shown in the question, in minutes -/
  ageMins : Option Nat
  defaultReply : String
  otherReply : String
  defaultMeansCreate : Bool
  deriving DecidableEq

/-- create.rs 105-113 -/
def newBuildProfile : CreatePrompt := ⟨none, "Yes", "No", true⟩
/-- create.rs 116-122, 157-166 -/
def staleBuildProfile : CreatePrompt := ⟨none, "Reuse", "Measure", false⟩
/-- create.rs 134-154, 157-166 -/
def maybeStaleBuildProfile (ageMins : Nat) : CreatePrompt := ⟨some ageMins, "Reuse", "Measure", false⟩

/-- `u64::MAX` -/
def U64MAX : Nat := 2 ^ 64 - 1

/-- create.rs 30-51. Ages are in nanoseconds (`Duration`). -/
def fromFreshness (f : Freshness) (manuallySpecified : Bool) : Option CreatePrompt :=
  match f with
  | .nonexistent => some newBuildProfile
  | .outdated => some staleBuildProfile
  | .maybeOutdated age =>
    let ageMins := match age with
      | some d => d / 1000000000 / 60
      | none => U64MAX
    if ageMins > 0 && !manuallySpecified then some (maybeStaleBuildProfile ageMins) else none

/-- The two buttons of the dialog. -/
inductive Button where
  | default | other
  deriving DecidableEq

/-- What is written on a button (create.rs 77-81). -/
def CreatePrompt.label (p : CreatePrompt) : Button → String
  | .default => p.defaultReply
  | .other => p.otherReply

/-- Boolean handed to the reply handler (create.rs 71-76). -/
def CreatePrompt.shouldCreate (p : CreatePrompt) : Button → Bool
  | .default => p.defaultMeansCreate
  | .other => !p.defaultMeansCreate

/-- What the user does when a prompt is shown: press a button, or leave without answering (which
`ask` reports as `None`, and after which `show` never calls its handler). -/
abbrev User := CreatePrompt → Option Button

/-- What `show_wizard` ends up doing. -/
inductive Effect where
  | errorDialog | measure | load | nothing
  deriving DecidableEq

/-- trace/measure.rs 67-102, from the freshness check on. -/
def showWizard (freshness : Except IoErr Freshness) (user : User) : Effect :=
  match freshness with
  | .error _ => .errorDialog
  | .ok f => match fromFreshness f false with
    | none => .load
    | some p => match user p with
      | none => .nothing
      | some b => if p.shouldCreate b then .measure else if f.exists? then .load else .nothing

/-- build/mod.rs 84-121: whether a measurement was started, and whether a profile path is returned.
`measured`: what `measure_profile` would return. -/
def updateProfile (freshness : Except IoErr Freshness) (manuallySpecified : Bool) (user : User) (measured : Bool) : Bool × Bool :=
  match freshness with
  | .error _ => (false, false)
  | .ok f => match fromFreshness f manuallySpecified with
    | none => (false, true)
    | some p => match user p with
      | none => (false, false)
      | some b => if p.shouldCreate b then (true, measured) else if f.exists? then (false, true) else (false, false)

/-! ## Specification -/

/-- The user was shown prompt `p` and pressed a button that asks for a measurement. -/
def AskedFor (p : CreatePrompt) (user : User) : Prop := ∃ b, user p = some b ∧ (p.label b = "Yes" ∨ p.label b = "Measure")

/-- No question needs to be asked: the product exists, is not older than the compilation database or a
source file, and is less than a minute old or was named by the user. -/
def Unquestioned (f : Freshness) (manual : Bool) : Prop :=
  ∃ age, f = .maybeOutdated age ∧ (manual = true ∨ ∃ d, age = some d ∧ d < 60 * 1000000000)

theorem fromFreshness_none (f : Freshness) (manual : Bool) : fromFreshness f manual = none ↔ Unquestioned f manual := by
  unfold fromFreshness Unquestioned
  cases f with
  | nonexistent => simp
  | outdated => simp
  | maybeOutdated age =>
    have hU : 0 < U64MAX := by unfold U64MAX; norm_num
    cases age with
    | none => cases manual <;> simp [hU]
    | some d =>
      have : (0 < d / 1000000000 / 60) ↔ ¬ (d < 60 * 1000000000) := by omega
      cases manual
      · simp only [gt_iff_lt, Bool.not_false, Bool.and_true, decide_eq_true_eq, Bool.false_eq_true, false_or]
        split_ifs with h
        · simp only [reduceCtorEq, false_iff]
          rintro ⟨a, ha, d', rfl, hd'⟩
          cases ha
          exact this.1 h hd'
        · simp only [true_iff]
          exact ⟨_, rfl, d, rfl, by omega⟩
      · simp

/-- Every prompt that can be shown is one of these. -/
theorem fromFreshness_cases (f : Freshness) (manual : Bool) (p : CreatePrompt) (h : fromFreshness f manual = some p) :
    (f = .nonexistent ∧ p.defaultReply = "Yes" ∧ p.otherReply = "No" ∧ p.defaultMeansCreate = true) ∨
    (f.exists? = true ∧ p.defaultReply = "Reuse" ∧ p.otherReply = "Measure" ∧ p.defaultMeansCreate = false) := by
  unfold fromFreshness at h
  cases f with
  | nonexistent => simp only [Option.some.injEq] at h; subst h; left; exact ⟨rfl, rfl, rfl, rfl⟩
  | outdated => simp only [Option.some.injEq] at h; subst h; right; exact ⟨rfl, rfl, rfl, rfl⟩
  | maybeOutdated age =>
    simp only at h
    split_ifs at h
    simp only [Option.some.injEq] at h
    subst h; right; exact ⟨rfl, rfl, rfl, rfl⟩

/-- A button asks for a measurement exactly when its label says so. -/
theorem shouldCreate_iff (f : Freshness) (manual : Bool) (p : CreatePrompt) (h : fromFreshness f manual = some p) (b : Button) :
    p.shouldCreate b = true ↔ (p.label b = "Yes" ∨ p.label b = "Measure") := by
  rcases fromFreshness_cases f manual p h with ⟨_, h1, h2, h3⟩ | ⟨_, h1, h2, h3⟩ <;> cases b <;>
    simp [CreatePrompt.shouldCreate, CreatePrompt.label, h1, h2, h3]

/-- **C45 (trace).** A trace measurement is started exactly when a prompt was shown and the user pressed
a button labelled "Yes" or "Measure". -/
theorem c45_trace_measure_iff (f : Except IoErr Freshness) (user : User) :
    showWizard f user = .measure ↔ ∃ f' p, f = .ok f' ∧ fromFreshness f' false = some p ∧ AskedFor p user := by
  unfold showWizard AskedFor
  cases f with
  | error e => simp
  | ok f =>
    cases hp : fromFreshness f false with
    | none => simp [hp]
    | some p =>
      cases hu : user p with
      | none => simp [hp, hu]
      | some b =>
        have := shouldCreate_iff f false p hp b
        cases hs : p.shouldCreate b with
        | true =>
          rw [hs] at this
          simp only [hp, hu, hs, if_true, true_iff]
          exact ⟨f, p, rfl, hp, b, hu, this.1 rfl⟩
        | false =>
          rw [hs] at this
          simp only [hp, hu, hs, Bool.false_eq_true, if_false]
          constructor
          · intro h; split_ifs at h
          · rintro ⟨f', p', hf, hp', b', hb', hl⟩
            cases hf
            rw [hp] at hp'; cases hp'
            rw [hu] at hb'; cases hb'
            exact absurd (this.2 hl) (by simp)

/-- **C45 (build profile).** Same for build profiles. -/
theorem c45_build_measure_iff (f : Except IoErr Freshness) (manual : Bool) (user : User) (measured : Bool) :
    (updateProfile f manual user measured).1 = true ↔
      ∃ f' p, f = .ok f' ∧ fromFreshness f' manual = some p ∧ AskedFor p user := by
  unfold updateProfile AskedFor
  cases f with
  | error e => simp
  | ok f =>
    cases hp : fromFreshness f manual with
    | none => simp [hp]
    | some p =>
      cases hu : user p with
      | none => simp [hp, hu]
      | some b =>
        have := shouldCreate_iff f manual p hp b
        cases hs : p.shouldCreate b with
        | true =>
          rw [hs] at this
          simp only [hp, hu, hs, if_true, true_iff]
          exact ⟨f, p, rfl, hp, b, hu, this.1 rfl⟩
        | false =>
          rw [hs] at this
          simp only [hp, hu, hs, Bool.false_eq_true, if_false]
          constructor
          · intro h; split_ifs at h
          · rintro ⟨f', p', hf, hp', b', hb', hl⟩
            cases hf
            rw [hp] at hp'; cases hp'
            rw [hu] at hb'; cases hb'
            exact absurd (this.2 hl) (by simp)

/-- Products that exist, according to the file system, have a freshness verdict that says so. -/
theorem exists_iff (fs : Build.Fs) (inputs : List Intern.Name) (output : Intern.Name) (f : Freshness)
    (h : productFreshness fs inputs output = .ok f) : f.exists? = true ↔ ∃ t, fs.mtime output = .ok t := by
  unfold productFreshness at h
  cases hm : fs.mtime output with
  | error e =>
    rw [hm] at h
    cases e with
    | notFound => cases h; simp [Freshness.exists?]
    | other c => cases h
  | ok t =>
    rw [hm] at h
    simp only at h
    have hex : f.exists? = true := by
      cases f with
      | nonexistent =>
        exfalso
        cases hd : fs.mtime Build.dbLocation with
        | error e => rw [hd] at h; simp at h
        | ok t' =>
          rw [hd] at h
          simp only at h
          split_ifs at h
          · cases h
          · split at h <;> cases h
          · split at h <;> cases h
      | outdated => rfl
      | maybeOutdated a => rfl
    simp [hex]

/-- **C45 (default answers reuse).** If the file exists, a user who always takes the default answer gets
it loaded, never re-measured; this holds for traces and for build profiles, on every file system. -/
theorem c45_default_reuses (fs : Build.Fs) (inputs : List Intern.Name) (output : Intern.Name) (f : Freshness)
    (h : productFreshness fs inputs output = .ok f) (t : Nat) (ht : fs.mtime output = .ok t) (manual measured : Bool) :
    showWizard (productFreshness fs inputs output) (fun _ => some .default) = .load ∧
    updateProfile (productFreshness fs inputs output) manual (fun _ => some .default) measured = (false, true) := by
  have hex : f.exists? = true := (exists_iff fs inputs output f h).2 ⟨t, ht⟩
  have aux : ∀ manual p, fromFreshness f manual = some p → p.shouldCreate .default = false := by
    intro manual p hp
    rcases fromFreshness_cases f manual p hp with ⟨h1, _⟩ | ⟨_, _, _, h3⟩
    · subst h1; cases hex
    · exact h3
  rw [h]
  constructor
  · unfold showWizard
    cases hp : fromFreshness f false with
    | none => simp [hp]
    | some p => simp [hp, aux false p hp, hex]
  · unfold updateProfile
    cases hp : fromFreshness f manual with
    | none => simp [hp]
    | some p => simp [hp, aux manual p hp, hex]

/-- **C45 (declining).** If the file does not exist and the user answers "No" or leaves, nothing is
measured and nothing is displayed. -/
theorem c45_decline (fs : Build.Fs) (inputs : List Intern.Name) (output : Intern.Name) (hn : fs.mtime output = .error .notFound)
    (user : User) (hu : ∀ p b, user p = some b → p.label b = "No") (manual measured : Bool) :
    showWizard (productFreshness fs inputs output) user = .nothing ∧
    updateProfile (productFreshness fs inputs output) manual user measured = (false, false) := by
  have hf : productFreshness fs inputs output = .ok .nonexistent := by unfold productFreshness; rw [hn]
  rw [hf]
  unfold showWizard updateProfile
  simp only [fromFreshness]
  cases hb : user newBuildProfile with
  | none => simp
  | some b =>
    have := hu _ _ hb
    cases b with
    | default => exact absurd this (by decide)
    | other => simp [CreatePrompt.shouldCreate, newBuildProfile, Freshness.exists?]

/-- **C45 (a returned profile exists).** `update_profile` only hands out a path if the file was there when
it checked or the user asked for a measurement and it succeeded. -/
theorem c45_profile_available (fs : Build.Fs) (inputs : List Intern.Name) (output : Intern.Name) (manual measured : Bool) (user : User)
    (h : (updateProfile (productFreshness fs inputs output) manual user measured).2 = true) :
    (∃ t, fs.mtime output = .ok t) ∨
    (measured = true ∧ (updateProfile (productFreshness fs inputs output) manual user measured).1 = true) := by
  cases hf : productFreshness fs inputs output with
  | error e => rw [hf] at h; simp [updateProfile] at h
  | ok f =>
    have hex := exists_iff fs inputs output f hf
    rw [hf] at h
    unfold updateProfile at h ⊢
    cases hp : fromFreshness f manual with
    | none =>
      left
      obtain ⟨age, h1, _⟩ := (fromFreshness_none f manual).1 hp
      exact hex.1 (by rw [h1]; rfl)
    | some p =>
      simp only [hp] at h ⊢
      cases hu : user p with
      | none => rw [hu] at h; simp at h
      | some b =>
        rw [hu] at h
        simp only [hu] at h ⊢
        split_ifs at h ⊢ with h1 h2
        · right; exact ⟨h, rfl⟩
        · left; exact hex.1 h2

/-- **C45 (when no question is asked).** The prompt is skipped exactly for existing products that are
newer than their inputs and either less than one minute old or explicitly named by the user. -/
theorem c45_no_question_iff (f : Freshness) (manual : Bool) : fromFreshness f manual = none ↔ Unquestioned f manual :=
  fromFreshness_none f manual

/-! ## C57: the age shown in the question -/

/-- create.rs 136-151: the text after " from ". -/
def ageText (ageMins : Nat) : String :=
  let ageHours := ageMins / 60
  let ageDays := ageHours / 24
  if ageDays > 0 then toString ageDays ++ " day" ++ (if ageDays > 1 then "s" else "")
  else if ageHours > 0 then toString ageHours ++ "h"
  else toString ageMins ++ "min"

/-- Duration of a unit in nanoseconds. -/
def MIN_NS : Nat := 60 * 1000000000
def HOUR_NS : Nat := 60 * MIN_NS
def DAY_NS : Nat := 24 * HOUR_NS

/-- **C57.** The question about a profile of age `d` states the number of whole days, or whole hours, or
whole minutes in `d`, in the largest of these units that gives a nonzero count; there always is one. -/
theorem c57_age_text (d : Nat) (manual : Bool) (p : CreatePrompt) (h : fromFreshness (.maybeOutdated (some d)) manual = some p) :
    ∃ m, p.ageMins = some m ∧ MIN_NS ≤ d ∧
      (DAY_NS ≤ d → ageText m = toString (d / DAY_NS) ++ " day" ++ (if 2 * DAY_NS ≤ d then "s" else "")) ∧
      (HOUR_NS ≤ d → d < DAY_NS → ageText m = toString (d / HOUR_NS) ++ "h") ∧
      (d < HOUR_NS → ageText m = toString (d / MIN_NS) ++ "min") := by
  have hM : MIN_NS = 60000000000 := rfl
  have hH : HOUR_NS = 3600000000000 := rfl
  have hD : DAY_NS = 86400000000000 := rfl
  unfold fromFreshness at h
  simp only at h
  split_ifs at h with h1
  simp only [Option.some.injEq] at h
  simp only [gt_iff_lt, Bool.and_eq_true, decide_eq_true_eq] at h1
  subst h
  have e1 : d / 1000000000 / 60 = d / MIN_NS := by rw [Nat.div_div_eq_div_mul]; rfl
  have e2 : d / 1000000000 / 60 / 60 = d / HOUR_NS := by rw [Nat.div_div_eq_div_mul, Nat.div_div_eq_div_mul]; rfl
  have e3 : d / 1000000000 / 60 / 60 / 24 = d / DAY_NS := by rw [Nat.div_div_eq_div_mul, Nat.div_div_eq_div_mul, Nat.div_div_eq_div_mul]; rfl
  refine ⟨_, rfl, by omega, ?_, ?_, ?_⟩
  · intro hd
    unfold ageText
    simp only [e3]
    have : 0 < d / DAY_NS := by rw [hD] at *; omega
    rw [if_pos this]
    congr 1
    have : (1 < d / DAY_NS) ↔ 2 * DAY_NS ≤ d := by rw [hD]; omega
    simp only [gt_iff_lt, this]
  · intro hd hd'
    unfold ageText
    simp only [e3]
    rw [e2]
    have h0 : ¬ 0 < d / DAY_NS := by rw [hD] at *; omega
    have h2 : 0 < d / HOUR_NS := by rw [hH] at *; omega
    rw [if_neg h0, if_pos h2]
  · intro hd
    unfold ageText
    simp only [e3]
    rw [e2, e1]
    have h0 : ¬ 0 < d / DAY_NS := by rw [hD, hH] at *; omega
    have h2 : ¬ 0 < d / HOUR_NS := by rw [hH] at *; omega
    rw [if_neg h0, if_neg h2]

/-- **C57 does not extend to products dated in the future**: a file stamped ahead of the clock is
announced as being thirty-five million years old. -/
theorem c57_future_file : ∃ p, fromFreshness (.maybeOutdated none) false = some p ∧ p.ageMins = some U64MAX ∧
    ageText U64MAX = "12810238940076077 days" := by
  refine ⟨maybeStaleBuildProfile U64MAX, by decide, rfl, by decide +kernel⟩

/-! ## Concrete cases -/

/-- An existing profile, two hours old. -/
def fsTwoHours : Build.Fs := ⟨fun _ => .ok 5, 5 + 2 * HOUR_NS⟩

example : productFreshness fsTwoHours ["a.cpp".toList] "p.csv".toList = .ok (.maybeOutdated (some (2 * HOUR_NS))) ∧
    (fromFreshness (.maybeOutdated (some (2 * HOUR_NS))) false).isSome ∧ ageText 120 = "2h" := by decide +kernel
example : showWizard (productFreshness fsTwoHours ["a.cpp".toList] "p.csv".toList) (fun _ => some .other) = .measure := by decide +kernel
example : showWizard (productFreshness fsTwoHours ["a.cpp".toList] "p.csv".toList) (fun _ => some .default) = .load := by decide +kernel
/-- No profile yet. -/
def fsNone : Build.Fs := ⟨fun p => if p = "p.csv".toList then .error .notFound else .ok 5, 9⟩
example : fsNone.mtime "p.csv".toList = .error .notFound ∧
    updateProfile (productFreshness fsNone [] "p.csv".toList) false (fun _ => some .default) true = (true, true) ∧
    (∀ p b, (fun p : CreatePrompt => if p.otherReply = "No" then some Button.other else none) p = some b → p.label b = "No") := by
  refine ⟨by decide, by decide, ?_⟩
  intro p b h; simp only at h; split_ifs at h with h1; cases h; exact h1
example : Unquestioned (.maybeOutdated (some 59999999999)) false := ⟨_, rfl, Or.inr ⟨_, rfl, by norm_num⟩⟩
example : ¬ Unquestioned (.maybeOutdated (some 60000000000)) false := by
  rintro ⟨_, h, h' | ⟨d, rfl, h'⟩⟩
  · cases h'
  · cases h; omega

end Verif.Tui.Prompt
