import Verif.Spec.Did
import Verif.Proofs.Count
/-!
# Base58 is one to one; the key of a DID
-/
namespace Verif.Did
open Verif
open Verif.Schema (alphabet b58int)

/-! ## Digits -/

theorem number_snoc (b : Nat) (l : List Nat) (d : Nat) : number b (l ++ [d]) = number b l * b + d := by
  simp [number, List.foldl_append]

theorem digits_zero (b : Nat) : digits b 0 = [] := by
  rw [digits]; simp

theorem digits_step {b n : Nat} (hb : 2 ≤ b) (hn : n ≠ 0) : digits b n = digits b (n / b) ++ [n % b] := by
  rw [digits, dif_neg (by omega)]

theorem number_digits {b : Nat} (hb : 2 ≤ b) (n : Nat) : number b (digits b n) = n := by
  induction n using Nat.strongRecOn with
  | _ n ih =>
    by_cases hn : n = 0
    · subst hn; rw [digits_zero]; rfl
    · rw [digits_step hb hn, number_snoc, ih (n / b) (Nat.div_lt_self (by omega) (by omega)), Nat.mul_comm]
      exact Nat.div_add_mod n b

theorem digits_lt {b : Nat} (hb : 2 ≤ b) (n : Nat) : ∀ d ∈ digits b n, d < b := by
  induction n using Nat.strongRecOn with
  | _ n ih =>
    by_cases hn : n = 0
    · subst hn; rw [digits_zero]; simp
    · rw [digits_step hb hn]
      intro d hd
      rcases List.mem_append.mp hd with h | h
      · exact ih (n / b) (Nat.div_lt_self (by omega) (by omega)) d h
      · rw [List.mem_singleton.mp h]; exact Nat.mod_lt _ (by omega)

theorem digits_head {b : Nat} (hb : 2 ≤ b) (n : Nat) : (digits b n).head? ≠ some 0 := by
  induction n using Nat.strongRecOn with
  | _ n ih =>
    by_cases hn : n = 0
    · subst hn; rw [digits_zero]; simp
    · rw [digits_step hb hn]
      by_cases hq : n / b = 0
      · rw [hq, digits_zero]
        have h := Nat.div_add_mod n b
        rw [hq] at h
        simp only [List.nil_append, List.head?_cons, ne_eq, Option.some.injEq]
        omega
      · rw [digits_step hb hq]
        have := ih (n / b) (Nat.div_lt_self (by omega) (by omega))
        rw [digits_step hb hq] at this
        rw [List.head?_append, Option.or_of_isSome] <;> simp_all

theorem digits_number {b : Nat} (hb : 2 ≤ b) (l : List Nat) :
    (∀ d ∈ l, d < b) → l.head? ≠ some 0 → digits b (number b l) = l := by
  induction l using Verif.snoc_induction with
  | nil => intro _ _; exact digits_zero b
  | snoc l d ih =>
    intro hlt hh
    have hd : d < b := hlt d (by simp)
    have hl : ∀ x ∈ l, x < b := fun x hx => hlt x (by simp [hx])
    cases l with
    | nil =>
      have h0 : d ≠ 0 := by simpa using hh
      have : number b [d] = d := by simp [number]
      show digits b (number b [d]) = [d]
      rw [this, digits_step hb h0, Nat.div_eq_of_lt hd, Nat.mod_eq_of_lt hd, digits_zero]; rfl
    | cons a r =>
      have ih' := ih hl (by simpa using hh)
      have hN : number b (a :: r) ≠ 0 := by
        intro h
        rw [h, digits_zero] at ih'
        cases ih'
      have hpos : 0 < b := by omega
      rw [number_snoc, digits_step hb (by
        have := Nat.mul_pos (Nat.pos_of_ne_zero hN) hpos
        omega)]
      rw [Nat.mul_comm, Nat.mul_add_div hpos, Nat.div_eq_of_lt hd, Nat.add_zero, ih',
        Nat.mul_add_mod, Nat.mod_eq_of_lt hd]

theorem b58int_number (s : Bytes) : b58int s = number 58 (s.map alphabet.idxOf) := by
  simp [b58int, number, List.foldl_map]

/-! ## Leading characters -/

theorem take_lead {α : Type} [BEq α] [LawfulBEq α] (x : α) (k : Nat) (r : List α) (h : r.head? ≠ some x) :
    (List.replicate k x ++ r).takeWhile (· == x) = List.replicate k x ∧
    (List.replicate k x ++ r).dropWhile (· == x) = r := by
  induction k with
  | zero =>
    cases r with
    | nil => simp
    | cons a r =>
      have : (a == x) = false := by
        apply Bool.eq_false_iff.mpr
        intro he
        exact h (by rw [eq_of_beq he]; rfl)
      simp [this]
  | succ k ih => simp [List.replicate_succ, ih.1, ih.2]

theorem split_lead {α : Type} [BEq α] [LawfulBEq α] (x : α) (l : List α) :
    l = List.replicate (l.takeWhile (· == x)).length x ++ l.dropWhile (· == x) ∧
    (l.dropWhile (· == x)).head? ≠ some x := by
  induction l with
  | nil => simp
  | cons a l ih =>
    by_cases h : (a == x) = true
    · have ha := eq_of_beq h
      subst ha
      simp only [List.takeWhile_cons, List.dropWhile_cons, h, if_true, List.length_cons, List.replicate_succ,
        List.cons_append]
      exact ⟨by rw [← ih.1], ih.2⟩
    · have h' : (a == x) = false := by simpa using h
      simp only [List.takeWhile_cons, List.dropWhile_cons, h', Bool.false_eq_true, if_false, List.length_nil,
        List.replicate_zero, List.nil_append, List.head?_cons, ne_eq, Option.some.injEq, true_and]
      intro he
      subst he
      simp at h

/-! ## The alphabet -/

theorem idx_alpha : ∀ d, d < 58 → alphabet.idxOf (alphabet.getD d 0) = d := by decide +kernel

theorem alpha_mem : ∀ d, d < 58 → alphabet.contains (alphabet.getD d 0) = true := by decide +kernel

theorem alpha_one : ∀ d, d < 58 → alphabet.getD d 0 = 49 → d = 0 := by decide +kernel

theorem alphabet_length : alphabet.length = 58 := by decide +kernel

theorem idx_lt {c : UInt8} (h : alphabet.contains c = true) : alphabet.idxOf c < 58 := by
  have := List.idxOf_lt_length_of_mem (l := alphabet) (a := c) (by simpa using h)
  rw [alphabet_length] at this
  exact this

theorem alpha_idx {c : UInt8} (h : alphabet.contains c = true) : alphabet.getD (alphabet.idxOf c) 0 = c := by
  have hm : c ∈ alphabet := by simpa using h
  have hl := List.idxOf_lt_length_of_mem hm
  rw [List.getD_eq_getElem?_getD, List.getElem?_eq_getElem hl, Option.getD_some]
  exact List.getElem_idxOf hl

theorem idx_zero {c : UInt8} (h : alphabet.contains c = true) (h0 : alphabet.idxOf c = 0) : c = 49 := by
  have := alpha_idx h
  rw [h0] at this
  rw [← this]
  decide +kernel

/-! ## There and back -/

theorem map_back {α β : Type} (f : α → β) (g : β → α) (l : List α) (h : ∀ x ∈ l, g (f x) = x) :
    (l.map f).map g = l := by
  induction l with
  | nil => rfl
  | cons a l ih => rw [List.map_cons, List.map_cons, h a (by simp), ih (fun x hx => h x (by simp [hx]))]

theorem encode_digits (bs : Bytes) : b58int ((b58encode bs).dropWhile (· == 49)) =
      number 256 ((bs.dropWhile (· == 0)).map UInt8.toNat) ∧
    ((b58encode bs).takeWhile (· == 49)).length = (bs.takeWhile (· == 0)).length ∧
    (b58encode bs).all (fun c => alphabet.contains c) = true := by
  have hlt := digits_lt (b := 58) (by omega) (number 256 ((bs.dropWhile (· == 0)).map UInt8.toNat))
  have hh := digits_head (b := 58) (by omega) (number 256 ((bs.dropWhile (· == 0)).map UInt8.toNat))
  have hnd := number_digits (b := 58) (by omega) (number 256 ((bs.dropWhile (· == 0)).map UInt8.toNat))
  unfold b58encode
  generalize digits 58 (number 256 ((bs.dropWhile (· == 0)).map UInt8.toNat)) = D at *
  have hhead : (D.map (fun d => alphabet.getD d 0)).head? ≠ some 49 := by
    cases D with
    | nil => simp
    | cons d D =>
      intro h
      simp only [List.map_cons, List.head?_cons, Option.some.injEq] at h
      exact hh (by rw [alpha_one d (hlt d (by simp)) h]; rfl)
  have hl := take_lead 49 (bs.takeWhile (· == 0)).length _ hhead
  refine ⟨?_, ?_, ?_⟩
  · rw [hl.2, b58int_number]
    rw [map_back _ _ D (fun d hd => idx_alpha d (hlt d hd)), hnd]
  · rw [hl.1, List.length_replicate]
  · rw [List.all_append, Bool.and_eq_true]
    refine ⟨?_, ?_⟩
    · rw [List.all_eq_true]
      intro c hc
      rw [List.eq_of_mem_replicate hc]
      decide +kernel
    · rw [List.all_eq_true]
      intro c hc
      obtain ⟨d, hd, rfl⟩ := List.mem_map.mp hc
      exact alpha_mem d (hlt d hd)

theorem decode_encode (bs : Bytes) : b58decode (b58encode bs) = some bs := by
  obtain ⟨h1, h2, h3⟩ := encode_digits bs
  obtain ⟨hs, hn⟩ := split_lead 0 bs
  unfold b58decode
  rw [if_pos h3, h1, h2, digits_number (by omega)]
  · rw [map_back _ _ _ (fun x _ => by simp), ← hs]
  · intro d hd
    obtain ⟨c, _, rfl⟩ := List.mem_map.mp hd
    exact c.toNat_lt
  · cases hd : bs.dropWhile (· == 0) with
    | nil => simp
    | cons c r =>
      intro h
      simp only [List.map_cons, List.head?_cons, Option.some.injEq] at h
      apply hn
      rw [hd, List.head?_cons, Option.some.injEq]
      exact UInt8.toNat_inj.mp (by simpa using h)

theorem encode_decode {s bs : Bytes} (h : b58decode s = some bs) : b58encode bs = s := by
  unfold b58decode at h
  split at h
  next hall =>
    cases h
    obtain ⟨hs, hn⟩ := split_lead (49 : UInt8) s
    have hmem : ∀ c ∈ s.dropWhile (· == 49), alphabet.contains c = true := fun c hc =>
      List.all_eq_true.mp hall c ((List.dropWhile_suffix _).subset hc)
    have hlt := digits_lt (b := 256) (by omega) (b58int (s.dropWhile (· == 49)))
    have hh := digits_head (b := 256) (by omega) (b58int (s.dropWhile (· == 49)))
    have hnd := number_digits (b := 256) (by omega) (b58int (s.dropWhile (· == 49)))
    generalize digits 256 (b58int (s.dropWhile (· == 49))) = D at *
    have hto : ∀ d ∈ D, (UInt8.ofNat d).toNat = d := fun d hd => by
      rw [UInt8.toNat_ofNat']
      exact Nat.mod_eq_of_lt (hlt d hd)
    have hhead : (D.map UInt8.ofNat).head? ≠ some 0 := by
      cases D with
      | nil => simp
      | cons d D =>
        intro h
        simp only [List.map_cons, List.head?_cons, Option.some.injEq] at h
        have := hto d (by simp)
        rw [h] at this
        exact hh (by rw [← this]; rfl)
    have hl := take_lead 0 (s.takeWhile (· == 49)).length _ hhead
    unfold b58encode
    rw [hl.1, hl.2, List.length_replicate, map_back _ _ D hto, hnd, b58int_number,
      digits_number (by omega)]
    · rw [map_back _ _ _ (fun c hc => alpha_idx (hmem c hc)), ← hs]
    · intro d hd
      obtain ⟨c, hc, rfl⟩ := List.mem_map.mp hd
      exact idx_lt (hmem c hc)
    · cases hd : s.dropWhile (· == 49) with
      | nil => simp
      | cons c r =>
        intro h
        simp only [List.map_cons, List.head?_cons, Option.some.injEq] at h
        apply hn
        rw [hd, List.head?_cons, idx_zero (hmem c (by rw [hd]; simp)) h]
  next => cases h

/-! ## The length of what is decoded is what the schemas look at -/

theorem digits_length (n : Nat) : (digits 256 n).length = Schema.byteLen n := by
  induction n using Nat.strongRecOn with
  | _ n ih =>
    by_cases hn : n = 0
    · subst hn; rw [digits_zero, Schema.byteLen]; simp
    · rw [digits_step (by omega) hn, Schema.byteLen, dif_neg hn, List.length_append,
        ih (n / 256) (Nat.div_lt_self (by omega) (by omega))]
      rfl

theorem decode_length {s bs : Bytes} (h : b58decode s = some bs) : bs.length = Schema.b58len s := by
  unfold b58decode at h
  split at h
  · cases h
    simp [Schema.b58len, digits_length]
  · cases h

theorem decode_some {s : Bytes} (h : s.all (fun c => alphabet.contains c) = true) : ∃ bs, b58decode s = some bs := by
  unfold b58decode
  rw [if_pos h]
  exact ⟨_, rfl⟩

theorem decode_all {s bs : Bytes} (h : b58decode s = some bs) : s.all (fun c => alphabet.contains c) = true := by
  unfold b58decode at h
  split at h
  · assumption
  · cases h

end Verif.Did
