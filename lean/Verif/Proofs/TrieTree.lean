import Verif.Model.Trie
/-!
# Tries as trees

The trie with its hashes followed: what the nodes say, without the store. `update` and `delete` here are those of the
model on such trees; they are used only in proofs, and `Proofs/Trie.lean` ties them to the model.
-/
namespace Verif.Trie

/-- A trie. A branch has 16 children, numbered from 0; the others are blank. An empty value is no value. -/
inductive T
  | blank
  | leaf (k : List Nat) (v : Bytes)
  | ext (k : List Nat) (t : T)
  | branch (f : Nat → T) (v : Bytes)

/-- What is left of `k` after the prefix `c`. -/
def strip : List Nat → List Nat → Option (List Nat)
  | [], k => some k
  | _ :: _, [] => none
  | a :: c, b :: k => if a = b then strip c k else none

theorem strip_append (c r : List Nat) : strip c (c ++ r) = some r := by
  induction c with
  | nil => rfl
  | cons a c ih => simp [strip, ih]

theorem strip_some {c k r : List Nat} (h : strip c k = some r) : k = c ++ r := by
  induction c generalizing k with
  | nil => cases h; rfl
  | cons a c ih =>
    cases k with
    | nil => cases h
    | cons b k =>
      simp only [strip] at h
      split at h
      · next e => rw [e, ih h]; rfl
      · cases h

theorem strip_none {c k : List Nat} (h : strip c k = none) (r : List Nat) : k ≠ c ++ r := by
  rintro rfl; rw [strip_append] at h; cases h

theorem strip_append_left (a b k : List Nat) : strip (a ++ b) k = (strip a k).bind (strip b) := by
  induction a generalizing k with
  | nil => rfl
  | cons x a ih =>
    cases k with
    | nil => rfl
    | cons y k =>
      simp only [List.cons_append, strip]
      split
      · exact ih k
      · rfl

/-- A function with one value changed. -/
def setF (f : Nat → T) (n : Nat) (t : T) : Nat → T := fun i => if i = n then t else f i

@[simp] theorem setF_same (f : Nat → T) (n : Nat) (t : T) : setF f n t n = t := by simp [setF]
theorem setF_ne (f : Nat → T) {n i : Nat} (t : T) (h : i ≠ n) : setF f n t i = f i := by simp [setF, h]

namespace T

def isBlank : T → Bool
  | blank => true
  | _ => false

theorem isBlank_iff {t : T} : t.isBlank = true ↔ t = .blank := by cases t <;> simp [isBlank]

def isBranch : T → Bool
  | branch _ _ => true
  | _ => false

/-- The value at a path; the empty value if there is none. -/
def get : T → List Nat → Bytes
  | blank, _ => []
  | leaf c v, k => if k = c then v else []
  | ext c t, k => match strip c k with
    | some r => get t r
    | none => []
  | branch _ v, [] => v
  | branch f _, n :: k => get (f n) k

/-- An extension over a path that may be empty. -/
def wrap (q : List Nat) (t : T) : T := if q = [] then t else ext q t

def none16 : Nat → T := fun _ => blank

def update : T → List Nat → Bytes → T
  | blank, k, v => leaf k v
  | branch f _, [], v => branch f v
  | branch f w, n :: k, v => branch (setF f n (update (f n) k v)) w
  | leaf c w, k, v =>
    let p := prefixLength k c
    match k.drop p, c.drop p with
    | [], [] => leaf c v
    | n :: r, [] => wrap (c.take p) (branch (setF none16 n (leaf r v)) w)
    | [], m :: s => wrap (c.take p) (branch (setF none16 m (leaf s w)) v)
    | n :: r, m :: s => wrap (c.take p) (branch (setF (setF none16 m (leaf s w)) n (leaf r v)) [])
  | ext c t, k, v =>
    let p := prefixLength k c
    match k.drop p, c.drop p with
    | r, [] => wrap (c.take p) (update t r v)
    | [], m :: s => wrap (c.take p) (branch (setF none16 m (wrap s t)) v)
    | n :: r, m :: s => wrap (c.take p) (branch (setF (setF none16 m (wrap s t)) n (leaf r v)) [])

/-- A path before a trie, merged with the path that is there. -/
def join (c : List Nat) : T → T
  | blank => blank
  | leaf k v => leaf (c ++ k) v
  | ext k t => ext (c ++ k) t
  | branch f v => ext c (branch f v)

/-- Something in slot `i` of a branch. -/
def occ (f : Nat → T) (v : Bytes) (i : Nat) : Bool := if i = 16 then v ≠ [] else !(f i).isBlank

def slots (f : Nat → T) (v : Bytes) : List Nat := (List.range 17).filter (occ f v)

def norm (f : Nat → T) (v : Bytes) : T :=
  match slots f v with
  | [i] => if i = 16 then leaf [] v else join [i] (f i)
  | _ => branch f v

def delete : T → List Nat → T
  | blank, _ => blank
  | branch f _, [] => norm f []
  | branch f w, n :: k =>
    if ((f n).delete k).isBlank then norm (setF f n blank) w
    else branch (setF f n ((f n).delete k)) w
  | leaf c w, k => if k = c then blank else leaf c w
  | ext c t, k => match strip c k with
    | some r => join c (t.delete r)
    | none => ext c t

/-- Two slots of a branch are in use. -/
def Two (f : Nat → T) (v : Bytes) : Prop := ∃ i j, i < j ∧ j ≤ 16 ∧ occ f v i = true ∧ occ f v j = true

/-- The shape of tries the code makes. -/
def WF : T → Prop
  | blank => True
  | leaf c v => (∀ n ∈ c, n < 16) ∧ v ≠ []
  | ext c t => c ≠ [] ∧ (∀ n ∈ c, n < 16) ∧ t.isBranch = true ∧ WF t
  | branch f v => (∀ n, WF (f n)) ∧ (∀ n, 16 ≤ n → f n = blank) ∧ Two f v

/-! ## Reading -/

theorem get_wrap (q : List Nat) (t : T) (k : List Nat) :
    (wrap q t).get k = match strip q k with | some r => t.get r | none => [] := by
  unfold wrap
  split
  · next h => subst h; rfl
  · rfl

theorem get_join (c : List Nat) (t : T) (k : List Nat) :
    (join c t).get k = match strip c k with | some r => t.get r | none => [] := by
  cases t with
  | blank => simp only [join, get]; split <;> rfl
  | leaf q v =>
    simp only [join, get]
    cases h : strip c k with
    | none => simp only; rw [if_neg (strip_none h q)]
    | some r =>
      have := strip_some h
      subst this
      simp only [List.append_cancel_left_eq]
  | ext q t =>
    simp only [join, get, strip_append_left]
    cases strip c k <;> rfl
  | branch f v => rfl

/-! ## Common prefixes -/

theorem prefix_spec (k c : List Nat) :
    ∃ q rk rc, k = q ++ rk ∧ c = q ++ rc ∧ prefixLength k c = q.length ∧
      (∀ a r b s, rk = a :: r → rc = b :: s → a ≠ b) := by
  induction k generalizing c with
  | nil => exact ⟨[], [], c, rfl, rfl, by simp [prefixLength], by intro a r b s h; cases h⟩
  | cons a k ih =>
    cases c with
    | nil => exact ⟨[], a :: k, [], rfl, rfl, by simp [prefixLength], by intro _ _ _ _ _ h; cases h⟩
    | cons b c =>
      by_cases e : a = b
      · subst e
        obtain ⟨q, rk, rc, h1, h2, h3, h4⟩ := ih c
        exact ⟨a :: q, rk, rc, by rw [h1]; rfl, by rw [h2]; rfl, by simp [prefixLength, h3], h4⟩
      · refine ⟨[], a :: k, b :: c, rfl, rfl, by simp [prefixLength, e], ?_⟩
        intro a' r b' s h h'
        cases h; cases h'; exact e

/-! ## Updating -/

theorem get_branch_two {m n : Nat} (hne : n ≠ m) (x y : T) (v : Bytes) (k : List Nat) :
    (branch (setF (setF none16 m x) n y) v).get k =
      match k with
      | [] => v
      | i :: r => if i = n then y.get r else if i = m then x.get r else [] := by
  cases k with
  | nil => rfl
  | cons i r =>
    simp only [get]
    by_cases h : i = n
    · subst h; simp
    · rw [setF_ne _ _ h, if_neg h]
      by_cases h' : i = m
      · subst h'; simp
      · rw [setF_ne _ _ h', if_neg h']; rfl

theorem get_branch_one {m : Nat} (x : T) (v : Bytes) (k : List Nat) :
    (branch (setF none16 m x) v).get k =
      match k with
      | [] => v
      | i :: r => if i = m then x.get r else [] := by
  cases k with
  | nil => rfl
  | cons i r =>
    simp only [get]
    by_cases h' : i = m
    · subst h'; simp
    · rw [setF_ne _ _ h', if_neg h']; rfl

theorem get_update (t : T) (k : List Nat) (v : Bytes) (k' : List Nat) :
    (t.update k v).get k' = if k' = k then v else t.get k' := by
  induction t generalizing k k' with
  | blank => simp [update, get]
  | branch f w ih =>
    cases k with
    | nil => cases k' <;> simp [update, get]
    | cons n k =>
      cases k' with
      | nil => simp [update, get]
      | cons i r =>
        simp only [update, get, List.cons.injEq]
        by_cases h : i = n
        · subst h; simp [ih]
        · rw [setF_ne _ _ h]; simp [h]
  | leaf c w =>
    obtain ⟨q, rk, rc, rfl, rfl, hp, hd⟩ := prefix_spec k c
    unfold update
    simp only [hp, List.drop_left', List.take_left']
    cases rk with
    | nil =>
      cases rc with
      | nil => simp only [get, List.append_nil]; split <;> rfl
      | cons m s =>
        simp only [get_wrap, get_branch_one]
        cases h : strip q k' with
        | none =>
          have h0 : k' ≠ q := by simpa using strip_none h []
          simp [get, h0, strip_none h (m :: s)]
        | some r' =>
          have := strip_some h; subst this
          cases r' with
          | nil => simp
          | cons i r' =>
            simp only [get]
            by_cases him : i = m <;> simp [him]
    | cons n r =>
      cases rc with
      | nil =>
        simp only [get_wrap, get_branch_one]
        cases h : strip q k' with
        | none => simp [get, strip_none h (n :: r)]; intro h2; exact absurd h2 (by simpa using strip_none h [])
        | some r' =>
          have := strip_some h; subst this
          cases r' with
          | nil => simp [get]
          | cons i r' =>
            simp only [get]
            by_cases him : i = n <;> simp [him]
      | cons m s =>
        have hne : n ≠ m := hd n r m s rfl rfl
        simp only [get_wrap, get_branch_two hne]
        cases h : strip q k' with
        | none => simp [get, strip_none h (n :: r), strip_none h (m :: s)]
        | some r' =>
          have := strip_some h; subst this
          cases r' with
          | nil => simp [get]
          | cons i r' =>
            simp only [get]
            by_cases him : i = n
            · subst him; simp [hne]
            · by_cases him2 : i = m
              · subst him2; simp [him]
              · simp [him, him2]
  | ext c t ih =>
    obtain ⟨q, rk, rc, rfl, rfl, hp, hd⟩ := prefix_spec k c
    unfold update
    simp only [hp, List.drop_left', List.take_left']
    cases rc with
    | nil =>
      simp only [get_wrap, List.append_nil, get]
      cases h : strip q k' with
      | none => simp [strip_none h rk]
      | some r' =>
        have := strip_some h; subst this
        simp [ih]
    | cons m s =>
      cases rk with
      | nil =>
        simp only [get_wrap, get_branch_one, get, strip_append_left]
        cases h : strip q k' with
        | none => have h0 : k' ≠ q := by simpa using strip_none h []
                  simp [h0]
        | some r' =>
          have := strip_some h; subst this
          cases r' with
          | nil => simp
          | cons i r' =>
            simp only [Option.bind_some, strip]
            by_cases him : i = m
            · subst him; simp [get_wrap]
            · have : ¬ m = i := fun h => him h.symm
              simp [him, this]
      | cons n r =>
        have hne : n ≠ m := hd n r m s rfl rfl
        simp only [get_wrap, get_branch_two hne, get, strip_append_left]
        cases h : strip q k' with
        | none => simp [strip_none h (n :: r)]
        | some r' =>
          have := strip_some h; subst this
          cases r' with
          | nil => simp [strip]
          | cons i r' =>
            simp only [Option.bind_some, strip]
            by_cases him : i = n
            · subst him; simp [get, Ne.symm hne]
            · by_cases him2 : i = m
              · subst him2; simp [him, get_wrap]
              · have : ¬ m = i := fun h => him2 h.symm
                simp [him, him2, this]

/-! ## Deleting -/

theorem mem_slots {f : Nat → T} {v : Bytes} {i : Nat} : i ∈ slots f v ↔ i < 17 ∧ occ f v i = true := by
  simp [slots]

theorem slots_sorted (f : Nat → T) (v : Bytes) : (slots f v).Pairwise (· < ·) :=
  List.Pairwise.filter _ List.pairwise_lt_range

theorem norm_cases (f : Nat → T) (v : Bytes) (h : ∃ i, i ≤ 16 ∧ occ f v i = true) :
    (∃ i, i ≤ 16 ∧ occ f v i = true ∧ (∀ j, j ≤ 16 → occ f v j = true → j = i) ∧
      norm f v = if i = 16 then leaf [] v else join [i] (f i)) ∨
    (Two f v ∧ norm f v = branch f v) := by
  unfold norm
  have hs := slots_sorted f v
  match hl : slots f v with
  | [] =>
    obtain ⟨i, hi, ho⟩ := h
    have : i ∈ slots f v := mem_slots.2 ⟨by omega, ho⟩
    rw [hl] at this; cases this
  | [i] =>
    have hi : i ∈ slots f v := by rw [hl]; exact List.mem_singleton.2 rfl
    obtain ⟨h1, h2⟩ := mem_slots.1 hi
    refine .inl ⟨i, by omega, h2, ?_, rfl⟩
    intro j hj hoj
    have : j ∈ slots f v := mem_slots.2 ⟨by omega, hoj⟩
    rw [hl] at this; exact List.mem_singleton.1 this
  | i :: j :: l =>
    refine .inr ⟨?_, rfl⟩
    rw [hl] at hs
    have hij : i < j := (List.pairwise_cons.1 hs).1 j List.mem_cons_self
    have hi : i ∈ slots f v := by rw [hl]; exact List.mem_cons_self
    have hj : j ∈ slots f v := by rw [hl]; exact List.mem_cons_of_mem _ List.mem_cons_self
    exact ⟨i, j, hij, by have := (mem_slots.1 hj).1; omega, (mem_slots.1 hi).2, (mem_slots.1 hj).2⟩

theorem occ_lt {f : Nat → T} {v : Bytes} {i : Nat} (h : i < 16) : occ f v i = !(f i).isBlank := by
  unfold occ; rw [if_neg (by omega)]

theorem occ_16 {f : Nat → T} {v : Bytes} : occ f v 16 = true ↔ v ≠ [] := by simp [occ]

theorem not_occ_blank {f : Nat → T} {v : Bytes} {i : Nat} (h : i < 16) (ho : ¬ occ f v i = true) : f i = blank := by
  rw [occ_lt h] at ho
  simpa [isBlank_iff] using ho

theorem get_norm {f : Nat → T} {v : Bytes} (hf : ∀ n, 16 ≤ n → f n = blank)
    (h : ∃ i, i ≤ 16 ∧ occ f v i = true) (k : List Nat) : (norm f v).get k = (branch f v).get k := by
  rcases norm_cases f v h with ⟨i, hi, ho, hu, e⟩ | ⟨-, e⟩
  · rw [e]
    have hb : ∀ j, j ≠ i → f j = blank := by
      intro j hj
      by_cases h16 : j < 16
      · exact not_occ_blank h16 (fun ho => hj (hu j (by omega) ho))
      · exact hf j (by omega)
    by_cases h16 : i = 16
    · subst h16
      rw [if_pos rfl]
      cases k with
      | nil => simp [get]
      | cons n r =>
        simp only [get]
        have : f n = blank := by
          by_cases hn : n = 16
          · exact hf n (by omega)
          · exact hb n hn
        rw [this]; simp [get]
    · rw [if_neg h16, get_join]
      have hv : v = [] := by
        by_cases hv : v = []
        · exact hv
        · exact absurd (hu 16 (Nat.le_refl _) (occ_16.2 hv)).symm h16
      cases k with
      | nil => simp [strip, get, hv]
      | cons n r =>
        simp only [strip, get]
        by_cases hn : i = n
        · subst hn; simp
        · rw [if_neg hn]; simp [hb n (fun h => hn h.symm), get]
  · rw [e]

theorem wf_join {c : List Nat} {t : T} (hc : c ≠ []) (hn : ∀ n ∈ c, n < 16) (ht : t.WF) : (join c t).WF := by
  cases t with
  | blank => trivial
  | leaf k v =>
    refine ⟨?_, ht.2⟩
    intro n h
    rcases List.mem_append.1 h with h | h
    · exact hn n h
    · exact ht.1 n h
  | ext k t =>
    refine ⟨by simp [hc], ?_, ht.2.2.1, ht.2.2.2⟩
    intro n h
    rcases List.mem_append.1 h with h | h
    · exact hn n h
    · exact ht.2.1 n h
  | branch f v => exact ⟨hc, hn, rfl, ht⟩

theorem wf_norm {f : Nat → T} {v : Bytes} (hw : ∀ n, (f n).WF) (hf : ∀ n, 16 ≤ n → f n = blank)
    (h : ∃ i, i ≤ 16 ∧ occ f v i = true) : (norm f v).WF := by
  rcases norm_cases f v h with ⟨i, hi, ho, -, e⟩ | ⟨h2, e⟩
  · rw [e]
    split
    · next h16 => subst h16; exact ⟨by simp, occ_16.1 ho⟩
    · exact wf_join (by simp) (by intro n hn; simp at hn; omega) (hw i)
  · rw [e]; exact ⟨hw, hf, h2⟩

theorem occ_setF_ne {f : Nat → T} {v : Bytes} {n i : Nat} {t : T} (h : i ≠ n) : occ (setF f n t) v i = occ f v i := by
  unfold occ; rw [setF_ne _ _ h]

theorem Two.other {f : Nat → T} {v : Bytes} (h : Two f v) (n : Nat) : ∃ i, i ≤ 16 ∧ i ≠ n ∧ occ f v i = true := by
  obtain ⟨i, j, hij, hj, hi', hj'⟩ := h
  by_cases e : i = n
  · exact ⟨j, hj, by omega, hj'⟩
  · exact ⟨i, by omega, e, hi'⟩

theorem Two.drop {f : Nat → T} {v : Bytes} (h : Two f v) (n : Nat) (t : T) :
    ∃ i, i ≤ 16 ∧ occ (setF f n t) v i = true := by
  obtain ⟨i, hi, hne, ho⟩ := h.other n
  exact ⟨i, hi, by rw [occ_setF_ne hne]; exact ho⟩

theorem Two.dropValue {f : Nat → T} {v : Bytes} (h : Two f v) : ∃ i, i ≤ 16 ∧ occ f [] i = true := by
  obtain ⟨i, hi, hne, ho⟩ := h.other 16
  refine ⟨i, hi, ?_⟩
  rw [occ_lt (by omega)] at ho ⊢; exact ho

theorem Two.keep {f : Nat → T} {v : Bytes} (h : Two f v) (n : Nat) {t : T} (ht : t.isBlank = false) :
    Two (setF f n t) v := by
  obtain ⟨i, j, hij, hj, hi', hj'⟩ := h
  have key : ∀ i, i ≤ 16 → occ f v i = true → occ (setF f n t) v i = true := by
    intro i hi16 ho
    by_cases e : i = n
    · subst e
      by_cases h16 : i = 16
      · subst h16; rw [occ_16] at ho ⊢; exact ho
      · rw [occ_lt (by omega), setF_same, ht]; rfl
    · rw [occ_setF_ne e]; exact ho
  exact ⟨i, j, hij, hj, key i (by omega) hi', key j hj hj'⟩

theorem get_delete (t : T) (ht : t.WF) (k k' : List Nat) :
    (t.delete k).get k' = if k' = k then [] else t.get k' := by
  induction t generalizing k k' with
  | blank => simp [delete, get]
  | leaf c w =>
    simp only [delete]
    split
    · next h => subst h; simp only [get]; split <;> simp_all
    · next h => simp only [get]; split
                · next h2 => subst h2; rw [if_neg (fun h3 => h h3.symm)]
                · simp
  | ext c t ih =>
    simp only [delete]
    cases h : strip c k with
    | none =>
      simp only
      split
      · next e => subst e; simp [get, h]
      · rfl
    | some r =>
      have := strip_some h; subst this
      simp only [get_join, get]
      cases h' : strip c k' with
      | none => simp
      | some r' =>
        have := strip_some h'; subst this
        simp [ih ht.2.2.2]
  | branch f w ih =>
    obtain ⟨hw, hf, h2⟩ := ht
    cases k with
    | nil =>
      simp only [delete]
      rw [get_norm hf h2.dropValue]
      cases k' <;> simp [get]
    | cons n k =>
      simp only [delete]
      split
      · next hb =>
        have hb := isBlank_iff.1 hb
        have hf' : ∀ i, 16 ≤ i → setF f n blank i = blank := by
          intro i hi
          by_cases e : i = n
          · subst e; simp
          · rw [setF_ne _ _ e]; exact hf i hi
        rw [get_norm hf' (h2.drop n _)]
        cases k' with
        | nil => simp [get]
        | cons i r =>
          simp only [get, List.cons.injEq]
          by_cases e : i = n
          · subst e
            have := ih i (hw i) k r
            rw [hb] at this
            simp only [setF_same, true_and]
            exact this
          · rw [setF_ne _ _ e]; simp [e]
      · cases k' with
        | nil => simp [get]
        | cons i r =>
          simp only [get, List.cons.injEq]
          by_cases e : i = n
          · subst e; simp [ih i (hw i)]
          · rw [setF_ne _ _ e]; simp [e]

theorem wf_delete (t : T) (ht : t.WF) (k : List Nat) : (t.delete k).WF := by
  induction t generalizing k with
  | blank => trivial
  | leaf c w =>
    simp only [delete]
    split
    · trivial
    · exact ht
  | ext c t ih =>
    simp only [delete]
    split
    · exact wf_join ht.1 ht.2.1 (ih ht.2.2.2 _)
    · exact ht
  | branch f w ih =>
    obtain ⟨hw, hf, h2⟩ := ht
    cases k with
    | nil => exact wf_norm hw hf h2.dropValue
    | cons n k =>
      simp only [delete]
      have hw' : ∀ t : T, t.WF → ∀ i, (setF f n t i).WF := by
        intro t ht i
        by_cases e : i = n
        · subst e; simpa using ht
        · rw [setF_ne _ _ e]; exact hw i
      split
      · refine wf_norm (hw' _ trivial) ?_ (h2.drop n _)
        intro i hi
        by_cases e : i = n
        · subst e; simp
        · rw [setF_ne _ _ e]; exact hf i hi
      · next hb =>
        refine ⟨hw' _ (ih n (hw n) k), ?_, h2.keep n (by simpa using hb)⟩
        intro i hi
        by_cases e : i = n
        · subst e
          exfalso; apply hb
          rw [hf i hi]; rfl
        · rw [setF_ne _ _ e]; exact hf i hi

theorem wf_wrap {q : List Nat} {t : T} (hq : ∀ n ∈ q, n < 16) (hb : t.isBranch = true) (ht : t.WF) : (wrap q t).WF := by
  unfold wrap
  split
  · exact ht
  · next h => exact ⟨h, hq, hb, ht⟩

theorem wrap_blank {q : List Nat} {t : T} (hb : t.isBlank = false) : (wrap q t).isBlank = false := by
  unfold wrap; split
  · exact hb
  · rfl

theorem wf_two {m n : Nat} {x y : T} (hm : m < 16) (hn : n < 16) (hne : n ≠ m) (hx : x.WF) (hy : y.WF)
    (hx' : x.isBlank = false) (hy' : y.isBlank = false) (v : Bytes) :
    (branch (setF (setF none16 m x) n y) v).WF := by
  refine ⟨?_, ?_, ?_⟩
  · intro i
    by_cases e : i = n
    · subst e; simpa using hy
    · rw [setF_ne _ _ e]
      by_cases e' : i = m
      · subst e'; simpa using hx
      · rw [setF_ne _ _ e']; trivial
  · intro i hi
    rw [setF_ne _ _ (by omega), setF_ne _ _ (by omega)]; rfl
  · have hm' : occ (setF (setF none16 m x) n y) v m = true := by
      rw [occ_lt hm, setF_ne _ _ (Ne.symm hne), setF_same, hx']; rfl
    have hn' : occ (setF (setF none16 m x) n y) v n = true := by
      rw [occ_lt hn, setF_same, hy']; rfl
    by_cases h : m < n
    · exact ⟨m, n, h, by omega, hm', hn'⟩
    · exact ⟨n, m, by omega, by omega, hn', hm'⟩

theorem wf_one {m : Nat} {x : T} (hm : m < 16) (hx : x.WF) (hx' : x.isBlank = false) {v : Bytes} (hv : v ≠ []) :
    (branch (setF none16 m x) v).WF := by
  refine ⟨?_, ?_, ?_⟩
  · intro i
    by_cases e' : i = m
    · subst e'; simpa using hx
    · rw [setF_ne _ _ e']; trivial
  · intro i hi
    rw [setF_ne _ _ (by omega)]; rfl
  · exact ⟨m, 16, hm, by omega, by rw [occ_lt hm, setF_same, hx']; rfl, occ_16.2 hv⟩

theorem isBranch_update (t : T) (hb : t.isBranch = true) (k : List Nat) (v : Bytes) :
    (t.update k v).isBranch = true := by
  cases t with
  | branch f w => cases k <;> rfl
  | _ => cases hb

theorem update_blank (t : T) (k : List Nat) (v : Bytes) : (t.update k v).isBlank = false := by
  cases t with
  | blank => rfl
  | branch f w => cases k <;> rfl
  | leaf c w =>
    simp only [update]
    split
    · rfl
    all_goals exact wrap_blank rfl
  | ext c t =>
    simp only [update]
    split
    · by_cases hb : (c.take (prefixLength k c)) = []
      · have := update_blank t (k.drop (prefixLength k c)) v
        exact wrap_blank this
      · unfold wrap; rw [if_neg hb]; rfl
    all_goals exact wrap_blank rfl

theorem wf_update (t : T) (ht : t.WF) (k : List Nat) (hk : ∀ n ∈ k, n < 16) (v : Bytes) (hv : v ≠ []) :
    (t.update k v).WF := by
  induction t generalizing k with
  | blank => exact ⟨hk, hv⟩
  | branch f w ih =>
    obtain ⟨hw, hf, h2⟩ := ht
    cases k with
    | nil =>
      refine ⟨hw, hf, ?_⟩
      obtain ⟨i, hi, hne, ho⟩ := h2.other 16
      refine ⟨i, 16, by omega, by omega, ?_, occ_16.2 hv⟩
      rw [occ_lt (by omega)] at ho ⊢; exact ho
    | cons n k =>
      have hn : n < 16 := hk n List.mem_cons_self
      refine ⟨?_, ?_, h2.keep n (update_blank _ _ _)⟩
      · intro i
        by_cases e : i = n
        · subst e; rw [setF_same]; exact ih i (hw i) k (fun x hx => hk x (List.mem_cons_of_mem _ hx))
        · rw [setF_ne _ _ e]; exact hw i
      · intro i hi
        rw [setF_ne _ _ (by omega)]; exact hf i hi
  | leaf c w =>
    obtain ⟨q, rk, rc, rfl, rfl, hp, hd⟩ := prefix_spec k c
    have hq : ∀ n ∈ q, n < 16 := fun n h => hk n (List.mem_append_left _ h)
    have hrk : ∀ n ∈ rk, n < 16 := fun n h => hk n (List.mem_append_right _ h)
    have hrc : ∀ n ∈ rc, n < 16 := fun n h => ht.1 n (List.mem_append_right _ h)
    unfold update
    simp only [hp, List.drop_left', List.take_left']
    cases rk with
    | nil =>
      cases rc with
      | nil => exact ⟨ht.1, hv⟩
      | cons m s =>
        exact wf_wrap hq rfl (wf_one (hrc m List.mem_cons_self)
          (show (leaf s w).WF from ⟨fun x hx => hrc x (List.mem_cons_of_mem _ hx), ht.2⟩) rfl hv)
    | cons n r =>
      have hl : (leaf r v).WF := ⟨fun x hx => hrk x (List.mem_cons_of_mem _ hx), hv⟩
      cases rc with
      | nil => exact wf_wrap hq rfl (wf_one (hrk n List.mem_cons_self) hl rfl ht.2)
      | cons m s =>
        exact wf_wrap hq rfl (wf_two (hrc m List.mem_cons_self) (hrk n List.mem_cons_self) (hd n r m s rfl rfl)
          (show (leaf s w).WF from ⟨fun x hx => hrc x (List.mem_cons_of_mem _ hx), ht.2⟩) hl rfl rfl _)
  | ext c t ih =>
    obtain ⟨hc, hcn, hb, ht⟩ := ht
    obtain ⟨q, rk, rc, rfl, rfl, hp, hd⟩ := prefix_spec k c
    have hq : ∀ n ∈ q, n < 16 := fun n h => hk n (List.mem_append_left _ h)
    have hrk : ∀ n ∈ rk, n < 16 := fun n h => hk n (List.mem_append_right _ h)
    have hrc : ∀ n ∈ rc, n < 16 := fun n h => hcn n (List.mem_append_right _ h)
    have htb : t.isBlank = false := by cases t <;> simp_all [isBranch, isBlank]
    unfold update
    simp only [hp, List.drop_left', List.take_left']
    cases rc with
    | nil => exact wf_wrap hq (isBranch_update t hb rk v) (ih ht rk hrk)
    | cons m s =>
      have hs : (wrap s t).WF := wf_wrap (fun x hx => hrc x (List.mem_cons_of_mem _ hx)) hb ht
      cases rk with
      | nil => exact wf_wrap hq rfl (wf_one (hrc m List.mem_cons_self) hs (wrap_blank htb) hv)
      | cons n r =>
        have hl : (leaf r v).WF := ⟨fun x hx => hrk x (List.mem_cons_of_mem _ hx), hv⟩
        exact wf_wrap hq rfl (wf_two (hrc m List.mem_cons_self) (hrk n List.mem_cons_self) (hd n r m s rfl rfl)
          hs hl (wrap_blank htb) rfl _)

/-! ## The content determines the trie -/

theorem nonempty (t : T) (ht : t.WF) (hb : t.isBlank = false) : ∃ k, t.get k ≠ [] := by
  induction t with
  | blank => cases hb
  | leaf c v => exact ⟨c, by simp [get, ht.2]⟩
  | ext c t ih =>
    obtain ⟨k, hk⟩ := ih ht.2.2.2 (by cases t <;> simp_all [isBranch, isBlank, WF])
    exact ⟨c ++ k, by simpa [get, strip_append] using hk⟩
  | branch f v ih =>
    obtain ⟨i, j, hij, hj, ho, -⟩ := ht.2.2
    have : i < 16 := by omega
    rw [occ_lt this] at ho
    obtain ⟨k, hk⟩ := ih i (ht.1 i) (by simpa using ho)
    exact ⟨i :: k, hk⟩

/-- A branch has two keys that differ at once. -/
theorem two_keys {t : T} (ht : t.WF) (hb : t.isBranch = true) :
    ∃ k1 k2, t.get k1 ≠ [] ∧ t.get k2 ≠ [] ∧ k1.head? ≠ k2.head? := by
  cases t with
  | branch f v =>
    obtain ⟨hw, -, i, j, hij, hj, hi', hj'⟩ := ht
    have h1 : i < 16 := by omega
    rw [occ_lt h1] at hi'
    obtain ⟨k, hk⟩ := nonempty (f i) (hw i) (by simpa using hi')
    by_cases h2 : j = 16
    · subst h2
      exact ⟨i :: k, [], hk, occ_16.1 hj', by simp⟩
    · rw [occ_lt (by omega)] at hj'
      obtain ⟨k', hk'⟩ := nonempty (f j) (hw j) (by simpa using hj')
      exact ⟨i :: k, j :: k', hk, hk', by simp; omega⟩
  | _ => cases hb

/-- If `c'` is a prefix of two extensions of `c` that differ right after `c`, it is a prefix of `c`. -/
theorem prefix_of_two {c c' k1 k2 r1 r2 : List Nat} (h1 : c ++ k1 = c' ++ r1) (h2 : c ++ k2 = c' ++ r2)
    (hne : k1.head? ≠ k2.head?) : ∃ s, c = c' ++ s := by
  induction c' generalizing c with
  | nil => exact ⟨c, rfl⟩
  | cons a c' ih =>
    cases c with
    | nil =>
      simp only [List.nil_append] at h1 h2
      subst h1 h2
      exact absurd rfl hne
    | cons b c =>
      simp only [List.cons_append, List.cons.injEq] at h1 h2
      obtain ⟨s, hs⟩ := ih h1.2 h2.2
      exact ⟨s, by rw [hs, h1.1]; rfl⟩

theorem ext_keys {c : List Nat} {t : T} {k : List Nat} (h : (ext c t).get k ≠ []) : ∃ r, k = c ++ r := by
  simp only [get] at h
  split at h
  · next r hr => exact ⟨r, strip_some hr⟩
  · exact absurd rfl h

theorem get_ext (c r : List Nat) (t : T) : (ext c t).get (c ++ r) = t.get r := by simp [get, strip_append]

/-- Two keys of an extension. -/
theorem ext_two {c : List Nat} {t : T} (h : (ext c t).WF) :
    ∃ k1 k2, (ext c t).get (c ++ k1) ≠ [] ∧ (ext c t).get (c ++ k2) ≠ [] ∧ k1.head? ≠ k2.head? := by
  obtain ⟨k1, k2, h1, h2, h3⟩ := two_keys h.2.2.2 h.2.2.1
  exact ⟨k1, k2, by rwa [get_ext], by rwa [get_ext], h3⟩

theorem leaf_key {c : List Nat} {v : Bytes} {k : List Nat} (h : (leaf c v).get k ≠ []) : k = c := by
  simp only [get] at h
  split at h
  · assumption
  · exact absurd rfl h

theorem leaf_ne_ext {c c' : List Nat} {v : Bytes} {t : T} (h : (ext c' t).WF)
    (he : ∀ k, (leaf c v).get k = (ext c' t).get k) : False := by
  obtain ⟨k1, k2, h1, h2, h3⟩ := ext_two h
  rw [← he] at h1 h2
  have := leaf_key h1
  rw [← leaf_key h2] at this
  exact h3 (by rw [List.append_cancel_left this])

theorem leaf_ne_branch {c : List Nat} {v w : Bytes} {f : Nat → T} (h : (branch f w).WF)
    (he : ∀ k, (leaf c v).get k = (branch f w).get k) : False := by
  obtain ⟨k1, k2, h1, h2, h3⟩ := two_keys h rfl
  rw [← he] at h1 h2
  have := leaf_key h1
  rw [← leaf_key h2] at this
  exact h3 (by rw [this])

theorem ext_ne_branch {c : List Nat} {t : T} {w : Bytes} {f : Nat → T} (h' : (ext c t).WF) (h : (branch f w).WF)
    (he : ∀ k, (ext c t).get k = (branch f w).get k) : False := by
  obtain ⟨k1, k2, h1, h2, h3⟩ := two_keys h rfl
  rw [← he] at h1 h2
  obtain ⟨r1, e1⟩ := ext_keys h1
  obtain ⟨r2, e2⟩ := ext_keys h2
  cases c with
  | nil => exact h'.1 rfl
  | cons a c => subst e1 e2; exact h3 rfl

theorem blank_ne {t : T} (ht : t.WF) (hb : t.isBlank = false) (he : ∀ k, ([] : Bytes) = t.get k) : False := by
  obtain ⟨k, hk⟩ := nonempty t ht hb
  exact hk (he k).symm

theorem canonical (t t' : T) (ht : t.WF) (ht' : t'.WF) (he : ∀ k, t.get k = t'.get k) : t = t' := by
  induction t generalizing t' with
  | blank =>
    cases t' with
    | blank => rfl
    | _ => exact (blank_ne ht' rfl he).elim
  | leaf c v =>
    cases t' with
    | blank => exact (blank_ne ht rfl (fun k => (he k).symm)).elim
    | leaf c' v' =>
      have h1 : (leaf c v).get c = v := by simp [get]
      have h2 : (leaf c' v').get c ≠ [] := by rw [← he, h1]; exact ht.2
      have h3 := leaf_key h2
      subst h3
      have := he c
      simp only [get, if_true] at this
      rw [this]
    | ext c' t' => exact (leaf_ne_ext ht' he).elim
    | branch f w => exact (leaf_ne_branch ht' he).elim
  | ext c t ih =>
    cases t' with
    | blank => exact (blank_ne ht rfl (fun k => (he k).symm)).elim
    | leaf c' v' => exact (leaf_ne_ext ht (fun k => (he k).symm)).elim
    | ext c' t' =>
      obtain ⟨k1, k2, h1, h2, h3⟩ := ext_two ht
      obtain ⟨k1', k2', h1', h2', h3'⟩ := ext_two ht'
      rw [he] at h1 h2
      rw [← he] at h1' h2'
      obtain ⟨r1, e1⟩ := ext_keys h1
      obtain ⟨r2, e2⟩ := ext_keys h2
      obtain ⟨r1', e1'⟩ := ext_keys h1'
      obtain ⟨r2', e2'⟩ := ext_keys h2'
      obtain ⟨s, hs⟩ := prefix_of_two e1 e2 h3
      obtain ⟨s', hs'⟩ := prefix_of_two e1' e2' h3'
      have hl := congrArg List.length hs
      have hl' := congrArg List.length hs'
      simp only [List.length_append] at hl hl'
      have : s = [] := List.length_eq_zero_iff.1 (by omega)
      subst this
      rw [List.append_nil] at hs
      subst hs
      congr 1
      refine ih t' ht.2.2.2 ht'.2.2.2 (fun r => ?_)
      have := he (c ++ r)
      rwa [get_ext, get_ext] at this
    | branch f w => exact (ext_ne_branch ht ht' he).elim
  | branch f v ih =>
    cases t' with
    | blank => exact (blank_ne ht rfl (fun k => (he k).symm)).elim
    | leaf c' v' => exact (leaf_ne_branch ht (fun k => (he k).symm)).elim
    | ext c' t' => exact (ext_ne_branch ht' ht (fun k => (he k).symm)).elim
    | branch f' v' =>
      have hv : v = v' := he []
      have hf : f = f' := funext (fun n => ih n (f' n) (ht.1 n) (ht'.1 n) (fun k => he (n :: k)))
      rw [hv, hf]

end T
end Verif.Trie
