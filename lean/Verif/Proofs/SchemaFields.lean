import Verif.Model.Schema
import Verif.Proofs.Entry
import Verif.Spec.PyVal
/-! Lemmas about the schemas: every validator accepts exactly the values of its form. -/
namespace Verif.Schema

open Verif (Val ascii)
open Verif.Entry (Bytes Items lookup get truthy OP withoutOp lookup_some_iff lookup_none_iff)
open Verif.Entry.Spec (Field NoField)
open Verif.Spec (WF)
open Verif.Schema.Spec (Need HasForm must may)

/-- The validator returns no error exactly for the values of the form. -/
def Exact (f : V) (P : Val → Prop) : Prop := ∀ v, WF v → (f v = .ok true ↔ P v)

theorem both_ok {a b : Except Exc Bool} : both a b = .ok true ↔ a = .ok true ∧ b = .ok true := by
  cases a with
  | error e => simp [both]
  | ok x => cases x <;> simp [both]

theorem allOk_ok {α : Type} {f : α → Except Exc Bool} {l : List α} :
    allOk f l = .ok true ↔ ∀ x ∈ l, f x = .ok true := by
  induction l with
  | nil => simp [allOk]
  | cons x l ih => simp [allOk, both_ok, ih]

theorem forEach_ok {α : Type} {f : α → Except Exc Unit} {l : List α} :
    forEach f l = .ok () ↔ ∀ x ∈ l, f x = .ok () := by
  induction l with
  | nil => simp [forEach]
  | cons x l ih =>
    simp only [forEach, List.forall_mem_cons]
    cases h : f x with
    | error e => simp
    | ok u => cases u; simpa using ih

theorem ok_inj {b : Bool} : (Except.ok b : Except Exc Bool) = .ok true ↔ b = true := by
  cases b <;> simp

theorem exact_any : Exact anyF Spec.Anything := fun v _ => by simp [anyF, Spec.Anything]

theorem exact_null {f : V} {P : Val → Prop} (h : Exact f P) : Exact (orNull f) (Spec.NullOr P) := by
  intro v hv
  cases v <;> simp [orNull, Spec.NullOr, h _ hv]

theorem exact_int {p : Int → Bool} {P : Int → Prop} (h : ∀ n, p n = true ↔ P n) :
    Exact (intF p) (Spec.Whole P) := by
  intro v _
  cases v with
  | bool b => cases b <;> simp [intF, intVal, Spec.Whole, h]
  | _ => simp [intF, intVal, Spec.Whole, h]

theorem exact_integer : Exact integerF (Spec.Whole (fun _ => True)) := exact_int (by simp)
theorem exact_nonNeg : Exact nonNegF Spec.Natural := exact_int (by simp)
theorem exact_port : Exact portF Spec.Port := exact_int (by intro n; simp; try omega)
theorem exact_txnSeqNo : Exact txnSeqNoF Spec.SeqNo := exact_int (by simp)
theorem exact_timestamp : Exact timestampF Spec.Time := exact_int (by simp)
theorem exact_ledgerId (env : Env) : Exact (ledgerIdF env) (Spec.LedgerId env) := by
  refine exact_int (fun n => ?_)
  simp only [List.contains_eq_mem, List.mem_append, decide_eq_true_eq]
  simp only [List.mem_cons, List.not_mem_nil, or_false]
  constructor
  · rintro (h | h)
    · left; omega
    · exact .inr h
  · rintro (h | h)
    · left; omega
    · exact .inr h

theorem exact_boolean : Exact booleanF Spec.Flag := by
  intro v _; cases v <;> simp [booleanF, Spec.Flag]

theorem chars_eq (s : Bytes) : chars s = Spec.numChars s := by
  induction s with
  | nil => rfl
  | cons b s ih =>
    rw [Spec.numChars, ← ih, chars, chars, List.filter_cons]
    by_cases h : 128 ≤ b ∧ b < 192
    · simp [h.1, h.2]
    · rw [if_neg h]
      have : (!(decide (128 ≤ b) && decide (b < 192))) = true := by
        simp only [Bool.not_eq_true', Bool.and_eq_false_iff, decide_eq_false_iff_not]
        by_cases h1 : 128 ≤ b
        · exact .inr fun h2 => h ⟨h1, h2⟩
        · exact .inl h1
      rw [if_pos this, List.length_cons]; omega

theorem exact_nonEmpty : Exact nonEmptyF Spec.NonEmpty := by
  intro v _; cases v <;> simp [nonEmptyF, Spec.NonEmpty, Spec.Text]

theorem exact_limited (n : Nat) : Exact (limitedF n) (Spec.UpTo n) := by
  intro v _
  cases v with
  | str s =>
    by_cases h : s = []
    · simp [limitedF, Spec.UpTo, Spec.Text, h]
    · simp [limitedF, Spec.UpTo, Spec.Text, chars_eq, h]
  | _ => simp [limitedF, Spec.UpTo, Spec.Text]

theorem exact_limitedEmpty (n : Nat) : Exact (limitedF n true) (Spec.AtMost n) := by
  intro v _
  cases v with
  | str s =>
    by_cases h : s = []
    · simp [limitedF, Spec.AtMost, Spec.Text, chars_eq, h, Spec.numChars]
    · simp [limitedF, Spec.AtMost, Spec.Text, chars_eq, h]
  | _ => simp [limitedF, Spec.AtMost, Spec.Text]

theorem exact_signature (n : Nat) : Exact (signatureF n) (Spec.NullOr (Spec.UpTo n)) := by
  intro v hv
  cases v with
  | str s =>
    have := exact_limited n _ hv
    by_cases h : s = []
    · subst h; simp [signatureF, Spec.NullOr, Spec.UpTo, Spec.Text]
    · simp [signatureF, Spec.NullOr, h, this]
  | _ => simp [signatureF, Spec.NullOr, Spec.UpTo, Spec.Text]

theorem exact_role : Exact roleF (Spec.NullOr (Spec.Text (fun _ => True))) := by
  intro v _; cases v <;> simp [roleF, Spec.NullOr, Spec.Text]

theorem exact_const (s : String) : Exact (constF (ascii s)) (Spec.Exactly s) := by
  intro v _; simp [constF, Spec.Exactly]

theorem exact_chooseTuple (l : List String) : Exact (chooseTupleF (l.map ascii)) (Spec.OneOf l) := by
  intro v _
  simp [chooseTupleF, Spec.OneOf]

theorem exact_chooseSet (l : List String) : Exact (chooseSetF (l.map ascii)) (Spec.OneOf l) := by
  intro v _
  cases v <;> simp [chooseSetF, Spec.OneOf]

theorem exact_iter {f : V} {P : Val → Prop} (h : Exact f P) : Exact (iterF f) (Spec.ListOf P) := by
  intro v hv
  cases v with
  | list l =>
    have hl : ∀ x ∈ l, WF x := by cases hv; assumption
    simp only [iterF, allOk_ok, Spec.ListOf, Val.list.injEq, exists_eq_left']
    exact ⟨fun h2 x hx => (h x (hl x hx)).1 (h2 x hx), fun h2 x hx => (h x (hl x hx)).2 (h2 x hx)⟩
  | _ => simp [iterF, Spec.ListOf]

theorem exact_map {k v : V} {K : Bytes → Prop} {P : Val → Prop} (hk : ∀ s, k (.str s) = .ok true ↔ K s)
    (h : Exact v P) : Exact (mapF k v) (Spec.DictOf K P) := by
  intro x hx
  cases x with
  | dict d =>
    have hl : ∀ e ∈ d, WF e.2 := by cases hx; assumption
    simp only [mapF, allOk_ok, Spec.DictOf, Val.dict.injEq, exists_eq_left', both_ok, hk]
    exact ⟨fun h2 e he => ⟨(h2 e he).1, (h _ (hl e he)).1 (h2 e he).2⟩,
      fun h2 e he => ⟨(h2 e he).1, (h _ (hl e he)).2 (h2 e he).2⟩⟩
  | _ => simp [mapF, Spec.DictOf]

theorem exact_anyMap : Exact anyMapF Spec.AnyDict := by
  intro v _; cases v <;> simp [anyMapF, Spec.AnyDict]

theorem exact_ip (env : Env) : Exact (ipF env) (Spec.Ip env) := by
  intro v _; cases v <;> simp [ipF, Spec.Ip, Spec.Text]

/-! ### Base58 -/

theorem b58int_snoc (s : Bytes) (b : UInt8) : b58int (s ++ [b]) = b58int s * 58 + alphabet.idxOf b := by
  simp [b58int]

theorem alphabet_nodup : alphabet.Nodup := by decide +kernel

theorem snocInd {P : Bytes → Prop} (h0 : P []) (h1 : ∀ s b, P s → P (s ++ [b])) (s : Bytes) : P s := by
  have : ∀ n (s : Bytes), s.length = n → P s := by
    intro n
    induction n with
    | zero => intro s h; rw [List.length_eq_zero_iff.1 h]; exact h0
    | succ n ih =>
      intro s h
      rcases List.eq_nil_or_concat s with rfl | ⟨l, b, rfl⟩
      · exact h0
      · rw [List.concat_eq_append] at h ⊢
        exact h1 _ _ (ih l (by simpa using h))
  exact this _ s rfl

theorem getElem?_idxOf {l : Bytes} {b : UInt8} (h : b ∈ l) : l[l.idxOf b]? = some b := by
  induction l with
  | nil => simp at h
  | cons a l ih =>
    by_cases hb : a = b
    · subst hb; simp
    · have hb2 : (a == b) = false := by simpa using hb
      rw [List.idxOf_cons, hb2, cond_false, List.getElem?_cons_succ]
      exact ih ((List.mem_cons.1 h).resolve_left (Ne.symm hb))

theorem idxOf_getElem {l : Bytes} (h : l.Nodup) (i : Nat) (hi : i < l.length) : l.idxOf l[i] = i := by
  induction l generalizing i with
  | nil => simp at hi
  | cons a l ih =>
    rw [List.nodup_cons] at h
    cases i with
    | zero => simp
    | succ i =>
      have hi2 : i < l.length := by simpa using hi
      have hne : a ≠ l[i] := fun he => h.1 (he ▸ List.getElem_mem hi2)
      have hb : (a == l[i]) = false := by simpa using hne
      rw [List.getElem_cons_succ, List.idxOf_cons, hb, cond_false, ih h.2 i hi2]

theorem digits_of (s : Bytes) : s.all (fun b => alphabet.contains b) = true → Spec.Digits s (b58int s) := by
  induction s using snocInd with
  | h0 => intro _; exact .nil
  | h1 s b ih =>
    intro h
    simp only [List.all_append, Bool.and_eq_true, List.all_cons, List.all_nil, Bool.and_true] at h
    rw [b58int_snoc, Nat.mul_comm]
    refine .snoc _ _ _ _ (ih h.1) ?_
    have : b ∈ alphabet := by simpa using h.2
    exact getElem?_idxOf this

theorem of_digits {s : Bytes} {n : Nat} (h : Spec.Digits s n) :
    s.all (fun b => alphabet.contains b) = true ∧ n = b58int s := by
  induction h with
  | nil => exact ⟨rfl, rfl⟩
  | snoc s n i b _ hi ih =>
    obtain ⟨hlt, he⟩ := List.getElem?_eq_some_iff.1 hi
    have hb : b ∈ alphabet := he ▸ List.getElem_mem hlt
    refine ⟨by simp only [List.all_append, ih.1, Bool.true_and, List.all_cons, List.all_nil, Bool.and_true]; simpa using hb, ?_⟩
    rw [b58int_snoc, ← ih.2, Nat.mul_comm]
    congr 1
    have := idxOf_getElem alphabet_nodup i hlt
    rw [← this]; exact congrArg (fun x => List.idxOf x alphabet) he

theorem byteLen_takes (x : Nat) : Spec.Takes x (byteLen x) := by
  induction x using Nat.strongRecOn with
  | _ x ih =>
    rw [byteLen]
    split
    · rename_i h; exact .inl ⟨h, rfl⟩
    · rename_i h
      refine .inr ⟨by omega, ?_⟩
      rcases ih (x / 256) (by omega) with ⟨h1, h2⟩ | ⟨h1, h2, h3⟩
      · rw [h2]; simp; omega
      · have e : byteLen (x / 256) + 1 - 1 = (byteLen (x / 256) - 1) + 1 := by omega
        rw [e, Nat.pow_succ, Nat.pow_succ]
        omega

theorem takes_unique (x : Nat) : ∀ m, Spec.Takes x m → m = byteLen x := by
  induction x using Nat.strongRecOn with
  | _ x ih =>
    intro m h
    rw [byteLen]
    rcases h with ⟨h1, h2⟩ | ⟨h1, h2, h3⟩
    · simp [h1, h2]
    · have hx : x ≠ 0 := by have := Nat.pow_pos (n := m - 1) (show 0 < 256 by omega); omega
      rw [dif_neg hx]
      by_cases hm : m = 1
      · subst hm
        have : x / 256 = 0 := by omega
        rw [this, byteLen]; simp
      · have := ih (x / 256) (by omega) (m - 1) (by
          right
          obtain ⟨j, rfl⟩ : ∃ j, m = j + 2 := ⟨m - 2, by omega⟩
          simp only [Nat.add_one_sub_one] at *
          refine ⟨by omega, ?_⟩
          rw [Nat.pow_succ] at h2 h3
          rw [Nat.pow_succ] at h3
          rw [Nat.pow_succ]
          constructor
          · omega
          · omega)
        omega

theorem takeWhile_replicate (b : UInt8) (s : Bytes) :
    s.takeWhile (· == b) = List.replicate (s.takeWhile (· == b)).length b := by
  induction s with
  | nil => rfl
  | cons c s ih =>
    by_cases h : c = b
    · subst h
      rw [List.takeWhile_cons_of_pos (by simp)]
      rw [List.length_cons, List.replicate_succ, ← ih]
    · rw [List.takeWhile_cons_of_neg (by simpa using h)]; rfl

theorem split_ones (k : Nat) (t : Bytes) (ht : t.head? ≠ some 49) :
    (List.replicate k 49 ++ t).takeWhile (· == (49 : UInt8)) = List.replicate k 49 ∧
    (List.replicate k 49 ++ t).dropWhile (· == (49 : UInt8)) = t := by
  induction k with
  | zero =>
    cases t with
    | nil => simp
    | cons c t =>
      have : c ≠ 49 := by simpa using ht
      simp [this]
  | succ k ih => simp [List.replicate_succ, ih]

theorem stands_iff (s : Bytes) (n : Nat) :
    Spec.Stands s n ↔ s.all (fun b => alphabet.contains b) = true ∧ n = b58len s := by
  constructor
  · rintro ⟨k, t, x, m, rfl, ht, hd, hm, rfl⟩
    obtain ⟨h1, h2⟩ := of_digits hd
    obtain ⟨h3, h4⟩ := split_ones k t ht
    refine ⟨?_, ?_⟩
    · rw [List.all_append, h1, Bool.and_true, List.all_eq_true]
      intro b hb
      rw [(List.mem_replicate.1 hb).2]
      decide +kernel
    · rw [b58len, h3, h4, ← h2, List.length_replicate, takes_unique _ _ hm]
  · rintro ⟨h1, rfl⟩
    refine ⟨(s.takeWhile (· == 49)).length, s.dropWhile (· == 49), b58int (s.dropWhile (· == 49)),
      byteLen (b58int (s.dropWhile (· == 49))), ?_, ?_, ?_, byteLen_takes _, rfl⟩
    · rw [← takeWhile_replicate, List.takeWhile_append_dropWhile]
    · intro h
      have := List.head?_dropWhile_not (· == (49 : UInt8)) s
      rw [h] at this
      simp at this
    · refine digits_of _ (List.all_eq_true.2 fun b hb => ?_)
      exact List.all_eq_true.1 h1 b ((List.dropWhile_sublist _).subset hb)

theorem base58_ok (lens : List Nat) (s : Bytes) :
    base58F lens (.str s) = .ok true ↔ ∃ n ∈ lens, Spec.Stands s n := by
  simp only [base58F, stands_iff]
  split
  · rename_i h
    rw [ok_inj, List.contains_eq_mem, decide_eq_true_eq]
    exact ⟨fun h2 => ⟨_, h2, h, rfl⟩, fun ⟨n, h2, _, h3⟩ => h3 ▸ h2⟩
  · rename_i h
    exact ⟨nofun, fun ⟨_, _, h2, _⟩ => absurd h2 h⟩

theorem exact_base58 (n : Nat) : Exact (base58F [n]) (Spec.Base58 n) := by
  intro v _
  cases v with
  | str s => rw [base58_ok]; simp [Spec.Base58, Spec.Text]
  | _ => simp [base58F, Spec.Base58, Spec.Text]

theorem exact_merkle : Exact merkleF Spec.Root := exact_base58 32

theorem exact_identifier : Exact identifierF Spec.Identifier := by
  intro v _
  cases v with
  | str s => rw [identifierF, base58_ok]; simp [Spec.Identifier, Spec.Base58, Spec.Text]
  | _ => simp [identifierF, base58F, Spec.Identifier, Spec.Base58, Spec.Text]

theorem base58_val (lens : List Nat) (s : Bytes) : ∃ b, base58F lens (.str s) = .ok b := by
  simp only [base58F]; split <;> exact ⟨_, rfl⟩

theorem exact_verkey : Exact verkeyF Spec.Verkey := by
  intro v hv
  cases v with
  | str s =>
    have hf := exact_base58 32 _ hv
    obtain ⟨b, hb⟩ := base58_val [32] s
    rw [hb] at hf
    cases s with
    | nil => simp [verkeyF, abbreviatedF, hb, Spec.Verkey, ← hf]
    | cons c s =>
      by_cases hc : c = 126
      · subst hc
        obtain ⟨a, ha⟩ := base58_val [16] s
        have ha2 := base58_ok [16] s
        rw [ha] at ha2
        simp at ha2
        simp [verkeyF, abbreviatedF, hb, ha, Spec.Verkey, ← hf, ← ha2, or_comm]
      · simp [verkeyF, abbreviatedF, hb, Spec.Verkey, ← hf, hc]
  | _ => simp [verkeyF, Spec.Verkey, Spec.Base58, Spec.Text]

theorem hex_iff (b : UInt8) : isHex b = true ↔ Spec.Hex b := by
  simp [isHex, Spec.Hex]
  constructor
  · rintro ((h | h) | h)
    · exact .inr (.inl h)
    · exact .inr (.inr h)
    · exact .inl h
  · rintro (h | h | h)
    · exact .inr h
    · exact .inl (.inl h)
    · exact .inl (.inr h)

theorem exact_sha256 : Exact sha256F Spec.Sha256 := by
  intro v _
  cases v with
  | str s =>
    simp only [sha256F, ok_inj, Spec.Sha256, Spec.Text, Val.str.injEq, exists_eq_left', Bool.and_eq_true,
      Bool.or_eq_true, beq_iff_eq, List.all_eq_true, hex_iff]
    constructor
    · rintro ⟨h1, h2 | ⟨h2, h3⟩⟩
      · rw [List.take_of_length_le (by omega)] at h1
        exact ⟨s, h2, h1, .inl rfl⟩
      · refine ⟨s.take 64, by simp; omega, h1, .inr ?_⟩
        rcases List.eq_nil_or_concat s with rfl | ⟨l, x, rfl⟩
        · simp at h2
        · simp at h2 h3
          subst h3
          simp [h2]
    · rintro ⟨h, h1, h2, rfl | rfl⟩
      · rw [List.take_of_length_le (by omega)]
        exact ⟨h2, .inl h1⟩
      · rw [List.take_append_of_le_length (by omega), List.take_of_length_le (by omega)]
        exact ⟨h2, .inr ⟨by simp [h1], by simp⟩⟩
  | _ => simp [sha256F, Spec.Sha256, Spec.Text]

theorem exact_serialized : Exact (serializedF false) Spec.Serialized := by
  intro v _; cases v <;> simp [serializedF, Spec.Serialized]

theorem exact_serializedNull : Exact (serializedF true) Spec.SerializedOrNull := by
  intro v _; cases v <;> simp [serializedF, Spec.SerializedOrNull]

theorem exact_protocol : Exact protocolF (· = .int 2) := by
  intro v _; cases v <;> simp [protocolF]
  omega

theorem strNonNeg_ok (env : Env) (s : Bytes) :
    strNonNegF env (.str s) = .ok true ↔ ∃ n, env.intOf s = some n ∧ 0 ≤ n := by
  simp only [strNonNegF]
  cases h : env.intOf s with
  | none => simp
  | some n => simp [nonNegF, intF, intVal]

end Verif.Schema
