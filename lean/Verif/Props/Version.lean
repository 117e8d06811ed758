import Verif.Spec.Version
/-!
# C118: version numbers
-/
namespace Verif.Props
open Verif.Version Verif.Spec.Version

/-- What follows does not go on with a digit. -/
def ver_stop (r : List Char) : Prop := ∀ c, r.head? = some c → c.isDigit = false

theorem ver_span (a r : List Char) (ha : ∀ c ∈ a, c.isDigit = true) (hr : ver_stop r) :
    (a ++ r).takeWhile Char.isDigit = a ∧ (a ++ r).dropWhile Char.isDigit = r := by
  induction a with
  | nil =>
    cases r with
    | nil => exact ⟨rfl, rfl⟩
    | cons c r =>
      have := hr c rfl
      simp [this]
  | cons c a ih =>
    obtain ⟨h1, h2⟩ := ih (fun d hd => ha d (by simp [hd]))
    have hc := ha c (by simp)
    simp only [List.cons_append, List.takeWhile_cons, List.dropWhile_cons, hc, if_true, h1, h2, and_self]

theorem ver_takeNum (a r : List Char) (n : Nat) (ha : Digits a n) (hr : ver_stop r) : takeNum (a ++ r) = some (n, r) := by
  obtain ⟨h1, h2⟩ := ver_span a r ha.2.1 hr
  unfold takeNum
  simp only [h1, h2]
  rw [if_neg ha.1, ← ha.2.2]

theorem ver_takeNum_sound (s r : List Char) (n : Nat) (h : takeNum s = some (n, r)) : ∃ a, Digits a n ∧ s = a ++ r := by
  unfold takeNum at h
  simp only at h
  split at h
  · cases h
  · next hne =>
    simp only [Option.some.injEq, Prod.mk.injEq] at h
    refine ⟨s.takeWhile Char.isDigit, ⟨hne, fun c hc => ?_, h.1.symm⟩, ?_⟩
    · have : ∀ (l : List Char), c ∈ l.takeWhile Char.isDigit → c.isDigit = true := by
        intro l
        induction l with
        | nil => intro h; cases h
        | cons d l ih =>
          rw [List.takeWhile_cons]
          split
          · next hd =>
            intro h
            rcases List.mem_cons.1 h with rfl | h
            · exact hd
            · exact ih h
          · intro h; cases h
      exact this s hc
    · rw [← h.2]
      exact (List.takeWhile_append_dropWhile).symm

theorem ver_takeDot (s r : List Char) : takeDot s = some r ↔ s = '.' :: r := by
  unfold takeDot
  split
  · simp
  · next h =>
    constructor
    · intro h'; cases h'
    · intro h'; exact absurd h' (h r)

theorem ver_takeTag (s r : List Char) (t : Tag) : takeTag s = some (t, r) ↔ s = t.chars ++ r := by
  constructor
  · intro h
    unfold takeTag at h
    split at h <;> first | cases h | skip
    all_goals rfl
  · rintro rfl
    cases t <;> rfl

theorem ver_optDot (s : List Char) : ∃ d, OptDot d ∧ s = d ++ optDot s := by
  unfold optDot
  split
  · exact ⟨['.'], .inr rfl, rfl⟩
  · exact ⟨[], .inl rfl, rfl⟩

theorem ver_optDot_app (d s : List Char) (hd : OptDot d) (hs : s.head? ≠ some '.') : optDot (d ++ s) = s := by
  rcases hd with rfl | rfl
  · rw [List.nil_append]
    unfold optDot
    split
    · exact absurd rfl hs
    · rfl
  · rfl

theorem ver_head_digits (s r : List Char) (n : Nat) (hs : Digits s n) : (s ++ r).head? ≠ some '.' := by
  obtain ⟨h1, h2, _⟩ := hs
  cases s with
  | nil => exact absurd rfl h1
  | cons c s =>
    intro h
    simp only [List.cons_append, List.head?_cons, Option.some.injEq] at h
    have := h2 c (by simp)
    rw [h] at this
    exact absurd this (by decide)

theorem ver_head_tag (t : Tag) (r : List Char) : (t.chars ++ r).head? ≠ some '.' := by
  cases t <;> simp [Tag.chars]

theorem ver_extra_stop (e : List Char) (x : Option (Tag × Nat)) (h : Extra e x) : ver_stop e := by
  intro c hc
  cases h with
  | none => cases hc
  | some d1 d2 t s n h1 h2 hs =>
    rcases h1 with rfl | rfl
    · cases t <;>
      · simp only [Tag.chars, List.nil_append, List.cons_append, List.head?_cons, Option.some.injEq] at hc
        subst hc
        decide
    · simp only [List.cons_append, List.head?_cons, Option.some.injEq] at hc
      subst hc
      decide

theorem ver_takeExtra (e : List Char) (x : Option (Tag × Nat)) : takeExtra e = some x ↔ Extra e x := by
  constructor
  · intro h
    unfold takeExtra at h
    split at h
    · next he => cases h; subst he; exact .none
    · split at h
      · cases h
      · next t r ht =>
        rw [ver_takeTag] at ht
        split at h
        · next n hn =>
          cases h
          obtain ⟨a, ha, hs⟩ := ver_takeNum_sound _ _ _ hn
          obtain ⟨d1, k1, e1⟩ := ver_optDot e
          obtain ⟨d2, k2, e2⟩ := ver_optDot r
          rw [e1, ht, e2, hs, List.append_nil]
          exact .some d1 d2 t a n k1 k2 ha
        · cases h
  · intro h
    cases h with
    | none => rfl
    | some d1 d2 t s n h1 h2 hs =>
      have e1 : optDot (d1 ++ (t.chars ++ (d2 ++ s))) = t.chars ++ (d2 ++ s) := ver_optDot_app _ _ h1 (ver_head_tag t _)
      have e2 : takeTag (t.chars ++ (d2 ++ s)) = some (t, d2 ++ s) := (ver_takeTag ..).2 rfl
      have e3 : optDot (d2 ++ s) = s := ver_optDot_app _ _ h2 (by simpa using ver_head_digits s [] n hs)
      have e4 : takeNum s = some (n, []) := by
        have := ver_takeNum s [] n hs (fun c hc => by cases hc)
        rwa [List.append_nil] at this
      have hne : d1 ++ (t.chars ++ (d2 ++ s)) ≠ [] := by
        intro h
        have := hs.1
        simp only [List.append_eq_nil_iff] at h
        exact this h.2.2.2
      unfold takeExtra
      rw [if_neg hne, e1, e2]
      simp only
      rw [e3, e4]

/-- A text is taken for a version exactly if it is written like it. -/
theorem C118_parse_iff (s : List Char) (v : Ver) : parse s = some v ↔ Written s v := by
  constructor
  · intro h
    unfold parse at h
    split at h
    · cases h
    · next x r h1 =>
      split at h
      · cases h
      · next r' h2 =>
        split at h
        · cases h
        · next y r2 h3 =>
          split at h
          · cases h
          · next r3 h4 =>
            split at h
            · cases h
            · next z r4 h5 =>
              obtain ⟨a, ha, rfl⟩ := ver_takeNum_sound _ _ _ h1
              rw [ver_takeDot] at h2
              subst h2
              obtain ⟨b, hb, rfl⟩ := ver_takeNum_sound _ _ _ h3
              rw [ver_takeDot] at h4
              subst h4
              obtain ⟨c, hc, rfl⟩ := ver_takeNum_sound _ _ _ h5
              cases he : takeExtra r4 with
              | none => rw [he] at h; cases h
              | some e =>
                rw [he] at h
                cases h
                exact ⟨a, b, c, r4, ha, hb, hc, (ver_takeExtra ..).1 he, rfl⟩
  · rintro ⟨a, b, c, e, ha, hb, hc, he, rfl⟩
    have hdot : ∀ r, ver_stop ('.' :: r) := fun r c hc => by
      simp only [List.head?_cons, Option.some.injEq] at hc
      subst hc
      decide
    unfold parse
    rw [ver_takeNum a _ _ ha (hdot _)]
    simp only [takeDot]
    rw [ver_takeNum b _ _ hb (hdot _)]
    simp only
    rw [ver_takeNum c _ _ hc (ver_extra_stop e _ he)]
    simp only
    rw [(ver_takeExtra ..).2 he]
    rfl

/-- One text is one version. -/
theorem C118_written_once (s : List Char) (v w : Ver) (hv : Written s v) (hw : Written s w) : v = w := by
  rw [← C118_parse_iff] at hv hw
  rw [hv] at hw
  exact Option.some.inj hw

theorem ver_digits (n : Nat) : Digits (Nat.toDigits 10 n) n := by
  refine ⟨?_, fun c hc => Nat.isDigit_of_mem_toDigits (by decide) (by decide) hc, ?_⟩
  · intro h
    have := @Nat.length_toDigits_pos 10 n
    rw [h] at this
    exact absurd this (by simp)
  · exact (Nat.ofDigitChars_ten_toDigits (n := n)).symm

/-- What a version shows itself as is read as the same version. -/
theorem C118_full_read (v : Ver) : parse v.full = some v := by
  rw [C118_parse_iff]
  unfold Ver.full
  refine ⟨_, _, _, _, ver_digits _, ver_digits _, ver_digits _, ?_, rfl⟩
  cases he : v.extra with
  | none => exact .none
  | some p =>
    obtain ⟨t, n⟩ := p
    simp only
    have := Extra.some (if v.dev.getD 0 ≠ 0 then ['.'] else []) [] t (Nat.toDigits 10 n) n
      (by split <;> simp [OptDot]) (.inl rfl) (ver_digits n)
    exact this

/-- Different versions show themselves differently. -/
theorem C118_full_injective (v w : Ver) (h : v.full = w.full) : v = w := by
  have := C118_full_read v
  rw [h, C118_full_read w] at this
  exact (Option.some.inj this).symm

/-- Which texts a plenum version is made of: releases, release candidates and development versions. -/
theorem C118_plenum_iff (s : List Char) (v : Ver) :
    plenum s = some v ↔ Written s v ∧ ∀ t n, v.extra = some (t, n) → t = .rc ∨ t = .dev := by
  unfold plenum
  rw [← C118_parse_iff]
  cases hp : parse s with
  | none => simp
  | some w =>
    obtain ⟨x, y, z, e⟩ := w
    simp only [Option.some.injEq]
    cases e with
    | none =>
      simp only [Ver.pre]
      constructor
      · intro h; cases h; exact ⟨rfl, fun t n h => by cases h⟩
      · intro h; rw [h.1]
    | some p =>
      obtain ⟨t, n⟩ := p
      cases t <;> simp only [Ver.pre, ne_eq, reduceCtorEq, not_true_eq_false, not_false_eq_true, if_true, if_false,
        Option.some.injEq, false_iff, not_and]
      · constructor
        · intro h; subst h; exact ⟨rfl, fun t n h => by cases h; exact .inr rfl⟩
        · intro h; exact h.1
      · constructor
        · intro h; subst h; exact ⟨rfl, fun t n h => by cases h; exact .inl rfl⟩
        · intro h; exact h.1
      · intro h; subst h; intro h; rcases h .a n rfl with h | h <;> cases h
      · intro h; subst h; intro h; rcases h .b n rfl with h | h <;> cases h

/-- A release version is made of every release; beyond those only of development versions with the number 0. -/
theorem C118_release_partial (s : List Char) (v : Ver) :
    semVer s = some v ↔ Written s v ∧ (v.extra = none ∨ v.extra = some (.dev, 0)) := by
  unfold semVer
  rw [← C118_parse_iff]
  cases hp : parse s with
  | none => simp
  | some w =>
    obtain ⟨x, y, z, e⟩ := w
    simp only [Option.some.injEq]
    cases e with
    | none =>
      rw [if_neg (by simp [Ver.pre, Ver.dev])]
      constructor
      · intro h; cases h; exact ⟨rfl, .inl rfl⟩
      · intro h; rw [h.1]
    | some p =>
      obtain ⟨t, n⟩ := p
      by_cases htn : t = .dev ∧ n = 0
      · obtain ⟨rfl, rfl⟩ := htn
        rw [if_neg (by simp [Ver.pre, Ver.dev])]
        constructor
        · intro h; cases h; exact ⟨rfl, .inr rfl⟩
        · intro h; rw [h.1]
      · have hif : ((⟨x, y, z, some (t, n)⟩ : Ver).dev.getD 0 ≠ 0 ∨ (⟨x, y, z, some (t, n)⟩ : Ver).pre.isSome) := by
          cases t
          · left
            simp only [Ver.dev, Option.getD_some]
            exact fun h => htn ⟨rfl, h⟩
          all_goals exact .inr rfl
        rw [if_pos hif]
        constructor
        · intro h; cases h
        · rintro ⟨rfl, h | h⟩
          · cases h
          · cases h; exact absurd ⟨rfl, rfl⟩ htn

/-- So a release version may be something else than digits and dots. -/
theorem C118_release_dev0 :
    ∃ s v, semVer s = some v ∧ ¬ (∀ c ∈ s, c.isDigit = true ∨ c = '.') :=
  ⟨"1.2.3.dev0".toList, ⟨1, 2, 3, some (.dev, 0)⟩, by decide, by decide⟩

theorem ver_chars_num (n : Nat) : (Part.num n).chars ≠ [] := (ver_digits n).1

theorem ver_chars_tag (t : Tag) : (Part.tag t).chars ≠ [] := by cases t <;> simp [Part.chars, Tag.chars]

/-- The version read from the file is the one that was set. -/
theorem C118_set_load (s : List Char) (f : List Part) (hf : setVersion s = some f) : loadVersion f = plenum s := by
  unfold setVersion at hf
  cases hp : plenum s with
  | none => rw [hp] at hf; cases hf
  | some v =>
    rw [hp] at hf
    cases hf
    obtain ⟨_, hx⟩ := (C118_plenum_iff s v).1 hp
    unfold loadVersion
    rw [C118_plenum_iff]
    refine ⟨?_, hx⟩
    obtain ⟨x, y, z, e⟩ := v
    cases e with
    | none =>
      have : (List.map Part.chars (⟨x, y, z, none⟩ : Ver).parts).filter (fun c => c ≠ []) =
          [Nat.toDigits 10 x, Nat.toDigits 10 y, Nat.toDigits 10 z] := by
        have h1 := ver_chars_num x
        have h2 := ver_chars_num y
        have h3 := ver_chars_num z
        simp only [Part.chars] at h1 h2 h3
        simp [Ver.parts, Ver.dev, Ver.pre, Part.chars, h1, h2, h3]
      rw [this]
      exact ⟨_, _, _, [], ver_digits x, ver_digits y, ver_digits z, .none, by simp [joinDot]⟩
    | some p =>
      obtain ⟨t, n⟩ := p
      have hparts : (⟨x, y, z, some (t, n)⟩ : Ver).parts = [.num x, .num y, .num z, .tag t, .num n] := by
        cases t <;> rfl
      have : (List.map Part.chars (⟨x, y, z, some (t, n)⟩ : Ver).parts).filter (fun c => c ≠ []) =
          [Nat.toDigits 10 x, Nat.toDigits 10 y, Nat.toDigits 10 z, t.chars, Nat.toDigits 10 n] := by
        have h1 := ver_chars_num x
        have h2 := ver_chars_num y
        have h3 := ver_chars_num z
        have h4 := ver_chars_num n
        have h5 := ver_chars_tag t
        simp only [Part.chars] at h1 h2 h3 h4 h5
        rw [hparts]
        simp [Part.chars, h1, h2, h3, h4, h5]
      rw [this]
      refine ⟨_, _, _, ['.'] ++ (t.chars ++ (['.'] ++ Nat.toDigits 10 n)), ver_digits x, ver_digits y, ver_digits z,
        .some ['.'] ['.'] t _ n (.inr rfl) (.inr rfl) (ver_digits n), by simp [joinDot]⟩

example : parse "1.13.0rc.2".toList = some ⟨1, 13, 0, some (.rc, 2)⟩ := by decide
example : parse "1.13".toList = none := by decide
example : (⟨1, 13, 0, some (.dev, 7)⟩ : Ver).full = "1.13.0.dev7".toList := by decide
example : plenum "1.13.0.a1".toList = none ∧ semVer "1.13.0rc2".toList = none := by decide
example : (setVersion "1.13.0.dev7".toList).bind loadVersion = some ⟨1, 13, 0, some (.dev, 7)⟩ := by decide

end Verif.Props
