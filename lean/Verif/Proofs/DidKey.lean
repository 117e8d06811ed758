import Verif.Proofs.Did
/-!
# The key of a DID, and what passes the check
-/
namespace Verif.Did
open Verif
open Verif.Schema (alphabet base58F identifierF verkeyF abbreviatedF)

theorem unhex_length : ∀ (k r : Bytes), unhex k = some r → k.length = 2 * r.length
  | [], r, h => by cases h; rfl
  | [_], r, h => by cases h
  | a :: b :: k, r, h => by
    unfold unhex at h
    split at h
    next x y l _ _ hl =>
      cases h
      have := unhex_length k l hl
      simp only [List.length_cons]
      omega
    next => cases h

theorem base58F_str (lens : List Nat) (s : Bytes) : base58F lens (.str s) =
    if s.all (fun b => alphabet.contains b) then .ok (lens.contains (Schema.b58len s)) else .ok false := rfl

theorem base58F_total (lens : List Nat) (s : Bytes) : ∃ x, base58F lens (.str s) = .ok x := by
  rw [base58F_str]; split <;> exact ⟨_, rfl⟩

theorem base58F_iff (lens : List Nat) (s : Bytes) : base58F lens (.str s) = .ok true ↔
    ∃ bs, b58decode s = some bs ∧ bs.length ∈ lens := by
  rw [base58F_str]
  split
  next h =>
    obtain ⟨bs, hb⟩ := decode_some h
    have hl := decode_length hb
    constructor
    · intro hc
      refine ⟨bs, hb, ?_⟩
      rw [hl]
      simpa using hc
    · rintro ⟨bs', hb', hm⟩
      rw [hb] at hb'
      cases hb'
      rw [hl] at hm
      simpa using hm
  next h =>
    constructor
    · intro hc; cases hc
    · rintro ⟨bs, hb, _⟩
      exact absurd (decode_all hb) h

theorem abbreviatedF_iff (s : Bytes) : abbreviatedF (.str s) = .ok true ↔
    ∃ t bs, s = tilde :: t ∧ b58decode t = some bs ∧ bs.length = 16 := by
  cases s with
  | nil => simp [abbreviatedF]
  | cons c t =>
    unfold abbreviatedF
    split
    next b s he =>
      cases he
      split
      next hc =>
        have : c = tilde := eq_of_beq hc
        subst this
        rw [base58F_iff]
        constructor
        · rintro ⟨bs, h1, h2⟩; exact ⟨_, bs, rfl, h1, by simpa using h2⟩
        · rintro ⟨t', bs, h0, h1, h2⟩; cases h0; exact ⟨bs, h1, by simpa using h2⟩
      next hc =>
        constructor
        · intro h; cases h
        · rintro ⟨t', bs, h0, _⟩
          cases h0
          exact absurd rfl hc
    next h => exact absurd rfl (h _ _)

theorem verkeyF_iff (s : Bytes) : verkeyF (.str s) = .ok true ↔
    (∃ t bs, s = tilde :: t ∧ b58decode t = some bs ∧ bs.length = 16) ∨ (∃ bs, b58decode s = some bs ∧ bs.length = 32) := by
  have h32 : base58F [32] (.str s) = .ok true ↔ ∃ bs, b58decode s = some bs ∧ bs.length = 32 := by
    rw [base58F_iff]; simp
  rw [← abbreviatedF_iff, ← h32]
  unfold verkeyF
  dsimp only
  have e1 := base58F_total [32] s
  have e2 : ∃ x, abbreviatedF (.str s) = .ok x := by
    unfold abbreviatedF
    split
    · split
      · exact base58F_total _ _
      · exact ⟨_, rfl⟩
    · exact ⟨_, rfl⟩
  obtain ⟨x, e1⟩ := e1
  obtain ⟨y, e2⟩ := e2
  rw [e1, e2]
  cases x <;> cases y <;> simp

theorem tilde_not : alphabet.contains tilde = false := by decide +kernel

theorem decode_tilde (t : Bytes) : b58decode (tilde :: t) = none := by
  cases h : b58decode (tilde :: t) with
  | none => rfl
  | some bs =>
    have := decode_all h
    rw [List.all_cons, tilde_not] at this
    cases this

theorem decode_nil : b58decode [] = some [] := by decide +kernel

theorem nacl_32 {k : Bytes} (h : k.length = 32) : naclKey k = some k := by
  unfold naclKey
  rw [if_neg (by intro e; rw [e] at h; cases h), if_pos h]

theorem nacl_48 {k : Bytes} (h : k.length = 48) : naclKey k = none := by
  unfold naclKey
  rw [if_neg (by intro e; rw [e] at h; cases h), if_neg (by omega)]
  split
  next r hr =>
    have := unhex_length k r hr
    rw [if_neg (by omega)]
  next => rfl

theorem didKey_iff {did record : Bytes} (hd : identifierF (.str did) = .ok true)
    (hr : record = [] ∨ verkeyF (.str record) = .ok true) (key : Bytes) :
    didKey record did = some key ↔ Spec.Did.KeyOf did record key ∧ key.length = 32 := by
  obtain ⟨raw, hraw, hlen⟩ := (base58F_iff _ _).mp hd
  have hne : did ≠ [] := by
    intro e
    rw [e, decode_nil] at hraw
    cases hraw
    simp at hlen
  have hlen' : raw.length = 16 ∨ raw.length = 32 := by simpa using hlen
  unfold didKey fullKeyText
  rw [if_neg hne, hraw]
  dsimp only
  rcases hr with hr | hr
  · subst hr
    by_cases h32 : raw.length = 32
    · rw [if_pos ⟨h32, rfl⟩]
      cases did with
      | nil => exact absurd rfl hne
      | cons c t =>
        have hc : c ≠ tilde := by
          intro e
          subst e
          rw [decode_tilde] at hraw
          cases hraw
        dsimp only
        rw [if_neg hc]
        dsimp only
        rw [hraw]
        dsimp only
        rw [nacl_32 h32]
        constructor
        · intro h; cases h; exact ⟨.cryptonym hraw, h32⟩
        · rintro ⟨h, hk⟩
          cases h with
          | whole h => rw [decode_nil] at h; cases h; cases hk
          | cryptonym h => rw [hraw] at h; cases h; rfl
    · rw [if_neg (by simp [h32])]
      dsimp only
      constructor
      · intro h; cases h
      · rintro ⟨h, hk⟩
        cases h with
        | whole h => rw [decode_nil] at h; cases h; cases hk
        | cryptonym h => rw [hraw] at h; cases h; exact absurd hk h32
  · rcases (verkeyF_iff _).mp hr with ⟨t, bs, rfl, hb, h16⟩ | ⟨bs, hb, h32⟩
    · rw [if_neg (by simp)]
      dsimp only
      rw [if_pos rfl, hb]
      dsimp only [Option.map]
      rw [decode_encode]
      dsimp only
      rcases hlen' with hl | hl
      · have h32 : (raw ++ bs).length = 32 := by rw [List.length_append]; omega
        rw [nacl_32 h32]
        constructor
        · intro h
          cases h
          exact ⟨.half hraw hb, h32⟩
        · rintro ⟨h, _⟩
          generalize hrec : tilde :: t = record at h
          cases h with
          | whole h => rw [← hrec, decode_tilde] at h; cases h
          | half h1 h2 =>
            cases hrec
            rw [hraw] at h1
            have h2' := hb.symm.trans h2
            cases h1
            cases h2'
            rfl
          | cryptonym h => cases hrec
      · have h48 : (raw ++ bs).length = 48 := by rw [List.length_append]; omega
        rw [nacl_48 h48]
        constructor
        · intro h; cases h
        · rintro ⟨h, hk⟩
          generalize hrec : tilde :: t = record at h
          cases h with
          | whole h => rw [← hrec, decode_tilde] at h; cases h
          | half h1 h2 =>
            cases hrec
            rw [hraw] at h1
            have h2' := hb.symm.trans h2
            cases h1
            cases h2'
            omega
          | cryptonym h => cases hrec
    · cases record with
      | nil => rw [decode_nil] at hb; cases hb; cases h32
      | cons c t =>
        have hc : c ≠ tilde := by
          intro e
          subst e
          rw [decode_tilde] at hb
          cases hb
        rw [if_neg (by simp)]
        dsimp only
        rw [if_neg hc]
        dsimp only
        rw [hb]
        dsimp only
        rw [nacl_32 h32]
        constructor
        · intro h; cases h; exact ⟨.whole hb, h32⟩
        · rintro ⟨h, hk⟩
          generalize hrec : c :: t = record at h
          cases h with
          | whole h => rw [← hrec, hb] at h; cases h; rfl
          | half h1 h2 => cases hrec; exact absurd rfl hc
          | cryptonym h => cases hrec

theorem naclVerify_iff (valid : Bytes → Bytes → Bytes → Bool) {key sig msg : Bytes} (hk : key.length = 32) :
    naclVerify valid key sig msg = true ↔
      Spec.Did.Signs valid key ((sig ++ msg).take 64) ((sig ++ msg).drop 64) := by
  unfold naclVerify opens Spec.Did.Signs
  rw [if_neg (by intro e; rw [e] at hk; cases hk), Bool.and_eq_true, decide_eq_true_eq, List.length_take]
  constructor
  · rintro ⟨a, b⟩; exact ⟨by omega, b⟩
  · rintro ⟨a, b⟩; exact ⟨by omega, b⟩

theorem didVerify_iff (valid : Bytes → Bytes → Bytes → Bool) {did record : Bytes}
    (hd : identifierF (.str did) = .ok true) (hr : record = [] ∨ verkeyF (.str record) = .ok true) (sig msg : Bytes) :
    didVerify valid (.str record) did sig msg = some true ↔
      ∃ key, Spec.Did.KeyOf did record key ∧ key.length = 32 ∧
        Spec.Did.Signs valid key ((sig ++ msg).take 64) ((sig ++ msg).drop 64) := by
  unfold didVerify
  dsimp only
  constructor
  · intro h
    cases hk : didKey record did with
    | none => rw [hk] at h; cases h
    | some key =>
      rw [hk] at h
      obtain ⟨h1, h2⟩ := (didKey_iff hd hr key).mp hk
      simp only [Option.map_some, Option.some.injEq] at h
      exact ⟨key, h1, h2, (naclVerify_iff valid h2).mp h⟩
  · rintro ⟨key, h1, h2, h3⟩
    rw [(didKey_iff hd hr key).mpr ⟨h1, h2⟩, Option.map_some, (naclVerify_iff valid h2).mpr h3]

end Verif.Did
