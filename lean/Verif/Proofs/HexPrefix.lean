import Verif.Model.Trie
/-!
# Packed paths
-/
namespace Verif.Trie

/-- Every element is a half-byte. -/
def Nib (c : List Nat) : Prop := ∀ n ∈ c, n < 16

theorem Nib.cons {a : Nat} {c : List Nat} (h : Nib (a :: c)) : a < 16 ∧ Nib c :=
  ⟨h a List.mem_cons_self, fun n hn => h n (List.mem_cons_of_mem _ hn)⟩

theorem Nib.append {a b : List Nat} (ha : Nib a) (hb : Nib b) : Nib (a ++ b) := by
  intro n hn
  rcases List.mem_append.1 hn with h | h
  · exact ha n h
  · exact hb n h

theorem nib_binToNibbles (s : Bytes) : Nib (binToNibbles s) := by
  intro n hn
  simp only [binToNibbles, List.mem_flatMap, List.mem_cons, List.not_mem_nil, or_false] at hn
  obtain ⟨x, -, h | h⟩ := hn
  · have := x.toNat_lt; omega
  · omega

theorem binToNibbles_cons (x : UInt8) (s : Bytes) :
    binToNibbles (x :: s) = x.toNat / 16 :: x.toNat % 16 :: binToNibbles s := by
  simp [binToNibbles]

theorem binToNibbles_inj {a b : Bytes} (h : binToNibbles a = binToNibbles b) : a = b := by
  induction a generalizing b with
  | nil =>
    cases b with
    | nil => rfl
    | cons y b => rw [binToNibbles_cons] at h; cases h
  | cons x a ih =>
    cases b with
    | nil => rw [binToNibbles_cons] at h; cases h
    | cons y b =>
      rw [binToNibbles_cons, binToNibbles_cons] at h
      simp only [List.cons.injEq] at h
      rw [ih h.2.2, show x = y from UInt8.toNat.inj (by omega)]

theorem binToNibbles_pairs : ∀ (l : List Nat), Nib l → l.length % 2 = 0 → binToNibbles (pairs l) = l
  | [], _, _ => rfl
  | [_], _, h => by simp at h
  | a :: b :: l, hn, h => by
    have ha := hn.cons.1
    have hb := hn.cons.2.cons.1
    have e : (UInt8.ofNat (16 * a + b)).toNat = 16 * a + b := by
      simp only [UInt8.toNat_ofNat']; omega
    rw [pairs, binToNibbles_cons, e, binToNibbles_pairs l hn.cons.2.cons.2 (by simp at h; omega)]
    congr 1
    · omega
    · congr 1; omega

/-- The packed form of a path. -/
def hexPrefix (c : List Nat) (leaf : Bool) : Bytes :=
  let flags := if leaf then 2 else 0
  if c.length % 2 = 1 then pairs ((flags + 1) :: c) else pairs (flags :: 0 :: c)

/-- The path with its terminator. -/
def term (c : List Nat) (leaf : Bool) : List Nat := if leaf then c ++ [terminator] else c

theorem pack_term {c : List Nat} {leaf : Bool} (hn : Nib c) (hne : leaf = true ∨ c ≠ []) :
    packNibbles (term c leaf) = .ok (hexPrefix c leaf) := by
  unfold packNibbles term hexPrefix
  cases leaf with
  | true => simp; split <;> rfl
  | false =>
    have hc : c ≠ [] := by simpa using hne
    simp only [Bool.false_eq_true, if_false, List.getLast?_eq_some_getLast hc]
    have : c.getLast hc ≠ terminator := by
      have := hn _ (List.getLast_mem hc); unfold terminator; omega
    simp only [this, if_false]
    split <;> rfl

theorem unpack_hexPrefix {c : List Nat} (hn : Nib c) (leaf : Bool) :
    unpackToNibbles (hexPrefix c leaf) = .ok (term c leaf) := by
  unfold unpackToNibbles hexPrefix term
  simp only
  by_cases h : c.length % 2 = 1
  · rw [if_pos h]
    have hf : (if leaf = true then 2 else 0) + 1 < 16 := by split <;> omega
    rw [binToNibbles_pairs]
    · cases leaf <;> simp
    · intro n hm
      rcases List.mem_cons.1 hm with e | hm
      · omega
      · exact hn n hm
    · simp; omega
  · rw [if_neg h, binToNibbles_pairs]
    · cases leaf <;> simp
    · intro n hm
      rcases List.mem_cons.1 hm with e | hm
      · rw [e]; split <;> omega
      · rcases List.mem_cons.1 hm with e | hm
        · omega
        · exact hn n hm
    · simp; omega

theorem withTerminator_nib {c : List Nat} (hn : Nib c) : withTerminator c = term c true := by
  unfold withTerminator term
  rw [if_neg, if_pos rfl]
  intro h
  have := hn _ (List.mem_of_getLast? h)
  unfold terminator at this; omega

theorem withoutTerminator_term {c : List Nat} (hn : Nib c) (leaf : Bool) : withoutTerminator (term c leaf) = c := by
  unfold withoutTerminator term
  cases leaf with
  | true => simp
  | false =>
    simp only [Bool.false_eq_true, if_false]
    rw [if_neg]
    intro h
    have := hn _ (List.mem_of_getLast? h)
    unfold terminator at this; omega

theorem getLast_term {c : List Nat} (hn : Nib c) (leaf : Bool) :
    (term c leaf).getLast? = some terminator ↔ leaf = true := by
  unfold term
  cases leaf with
  | true => simp
  | false =>
    simp only [Bool.false_eq_true, if_false, iff_false]
    intro h
    have := hn _ (List.mem_of_getLast? h)
    unfold terminator at this; omega

theorem hexPrefix_inj {c c' : List Nat} {l l' : Bool} (hn : Nib c) (hn' : Nib c')
    (h : hexPrefix c l = hexPrefix c' l') : c = c' ∧ l = l' := by
  have h1 := unpack_hexPrefix hn l
  rw [h, unpack_hexPrefix hn' l'] at h1
  have h2 : term c' l' = term c l := by injection h1
  have h3 : l = l' := by
    have a := getLast_term hn l
    rw [← h2, getLast_term hn' l'] at a
    cases l <;> cases l' <;> simp_all
  refine ⟨?_, h3⟩
  rw [← withoutTerminator_term hn l, ← h2, withoutTerminator_term hn' l']

end Verif.Trie
