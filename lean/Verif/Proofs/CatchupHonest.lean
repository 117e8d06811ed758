import Verif.Proofs.Catchup
/-!
# Proofs about catchup from honest seeders
-/
namespace Verif.Catchup
open Verif.Merkle

section
variable {τ : Type} {E : Env τ}

/-- The reply an honest node gives for the transactions `a..b` of the agreed log `D`. -/
def HonestRange (E : Env τ) (D : List τ) (r : Rep τ) (a b : Nat) : Prop :=
  1 ≤ a ∧ a ≤ b ∧ b ≤ D.length ∧ r.txns = txnRange E D a b ∧
  verifyTreeConsistency (TreeHasher.ofHash E.H) b D.length (Spec.mth E.H ((D.take b).map E.ser))
    (Spec.mth E.H (D.map E.ser)) r.proof = .ok true

theorem zipIdx_txn {l : List τ} {s i : Nat} {x : τ} : (x, i) ∈ l.zipIdx s ↔ s ≤ i ∧ l[i - s]? = some x := by
  rw [List.mem_zipIdx_iff_le_and_getElem?_sub]

theorem mem_txnRange {D : List τ} {a b : Nat} (ha : 1 ≤ a) {k : List Char} {x : τ} :
    (k, x) ∈ txnRange E D a b ↔ ∃ i : Nat, a ≤ i ∧ i ≤ b ∧ D[i - 1]? = some x ∧ k = E.toStr i := by
  unfold txnRange
  rw [List.mem_map]
  constructor
  · rintro ⟨⟨y, i⟩, h, he⟩
    rw [zipIdx_txn] at h
    simp only at he
    injection he with h1 h2
    subst h2
    obtain ⟨h3, h4⟩ := h
    rw [List.getElem?_drop, List.getElem?_take] at h4
    split at h4
    · exact ⟨i, h3, by omega, by rw [← h4]; congr 1; omega, h1.symm⟩
    · cases h4
  · rintro ⟨i, h1, h2, h3, h4⟩
    refine ⟨(x, i), zipIdx_txn.2 ⟨h1, ?_⟩, by rw [h4]⟩
    rw [List.getElem?_drop, List.getElem?_take, if_pos (by omega), ← h3]
    congr 1; omega

theorem HonestRange.holds (hE : E.Sound) {D : List τ} {r : Rep τ} {a b : Nat} (h : HonestRange E D r a b) (n : Int) :
    r.holds E n = true ↔ (a : Int) ≤ n ∧ n ≤ b := by
  obtain ⟨h1, h2, h3, h4, _⟩ := h
  rw [holds_iff, h4]
  constructor
  · rintro ⟨t, ht⟩
    obtain ⟨i, hi1, hi2, _, hi⟩ := (mem_txnRange h1).1 ht
    have : n = i := by
      have e := congrArg E.toInt hi
      rw [hE, hE] at e
      injection e
    omega
  · rintro ⟨hn1, hn2⟩
    have hl : n.toNat - 1 < D.length := by omega
    exact ⟨D[n.toNat - 1], (mem_txnRange h1).2 ⟨n.toNat, by omega, by omega, List.getElem?_eq_getElem hl,
      by congr 1; omega⟩⟩

theorem HonestRange.length {D : List τ} {r : Rep τ} {a b : Nat} (h : HonestRange E D r a b) :
    r.txns.length = b + 1 - a := by
  obtain ⟨h1, h2, h3, h4, _⟩ := h
  rw [h4, txnRange]
  simp
  omega

/-- The numbered transactions of an honest reply. -/
def honestNs (D : List τ) (a b : Nat) : List (Int × τ) :=
  (((D.take b).drop (a - 1)).zipIdx a).map (fun e => ((e.2 : Int), e.1))

theorem numbered_map (hE : E.Sound) : ∀ (l : List (τ × Nat)),
    numbered E (l.map (fun e => (E.toStr e.2, e.1))) = some (l.map (fun e => ((e.2 : Int), e.1)))
  | [] => rfl
  | e :: l => by
    have ih := numbered_map hE l
    unfold numbered at ih ⊢
    have hE' := hE e.2
    simp only [List.map_cons, List.mapM_cons, ih]
    rw [hE']
    rfl

theorem HonestRange.numbered (hE : E.Sound) {D : List τ} {r : Rep τ} {a b : Nat} (h : HonestRange E D r a b) :
    numbered E r.txns = some (honestNs D a b) := by
  rw [h.2.2.2.1, txnRange, numbered_map hE]
  rfl

theorem consecutive_zipIdx : ∀ (l : List τ) (a : Nat),
    consecutive ((l.zipIdx a).map (fun e => ((e.2 : Int), e.1))) = true
  | [], _ => rfl
  | [_], _ => rfl
  | x :: y :: l, a => by
    have ih := consecutive_zipIdx (y :: l) (a + 1)
    simp only [List.zipIdx_cons, List.map_cons] at ih ⊢
    simp only [consecutive, Bool.and_eq_true, beq_iff_eq]
    exact ⟨by simp, ih⟩

theorem sorted_of_consecutive : ∀ (l : List (Int × τ)), consecutive l = true → Sorted l
  | [], _ => List.Pairwise.nil
  | a :: l, h => (consecutive_spec l a h).2

theorem interesting_honest (D : List τ) (a b size : Nat) :
    interesting size (honestNs D a b) =
      if (honestNs D a b).any (fun e => decide (e.1 > (size : Int))) then honestNs D a b else [] := by
  have hc : consecutive (honestNs D a b) = true := consecutive_zipIdx _ _
  have hs := sorted_of_consecutive _ hc
  have hm : (honestNs D a b).mergeSort le = honestNs D a b :=
    List.mergeSort_of_pairwise (hs.imp (fun h => by simp only [le, decide_eq_true_eq]; omega))
  unfold interesting
  simp only [hm, hc]
  by_cases h : (honestNs D a b).any (fun e => decide (e.1 > (size : Int))) = true <;> simp [h]

theorem mem_honestNs {D : List τ} {a b : Nat} (ha : 1 ≤ a) {n : Int} {x : τ} :
    (n, x) ∈ honestNs D a b ↔ ∃ i : Nat, n = i ∧ a ≤ i ∧ i ≤ b ∧ D[i - 1]? = some x := by
  unfold honestNs
  rw [List.mem_map]
  constructor
  · rintro ⟨⟨y, i⟩, h, he⟩
    rw [zipIdx_txn] at h
    simp only at he
    injection he with h1 h2
    subst h2
    obtain ⟨h3, h4⟩ := h
    rw [List.getElem?_drop, List.getElem?_take] at h4
    split at h4
    · exact ⟨i, h1.symm, h3, by omega, by rw [← h4]; congr 1; omega⟩
    · cases h4
  · rintro ⟨i, h0, h1, h2, h3⟩
    refine ⟨(x, i), zipIdx_txn.2 ⟨h1, ?_⟩, by rw [h0]⟩
    rw [List.getElem?_drop, List.getElem?_take, if_pos (by omega), ← h3]
    congr 1; omega

/-- Transactions of the log `D` under their own numbers. -/
def Right (D : List τ) (l : List (Int × τ)) : Prop :=
  ∀ e ∈ l, ∃ i : Nat, e.1 = i ∧ 1 ≤ i ∧ D[i - 1]? = some e.2

/-- A sorted list of transactions numbered from `k+1`, complete up to `k+c`, starts with
exactly those of the log. -/
theorem take_right {D : List τ} : ∀ (c k : Nat) (l : List (Int × τ)), Sorted l → Right D l →
    (∀ e ∈ l, (k : Int) < e.1) → (∀ v : Int, k < v → v ≤ k + c → ∃ e ∈ l, e.1 = v) →
    (l.take c).map Prod.snd = (D.drop k).take c ∧ (∀ e ∈ l.take c, e.1 ≤ k + c) ∧
    (∀ e ∈ l.drop c, (k + c : Int) < e.1) ∧ (l.take c).length = c
  | 0, k, l, _, _, hgt, _ => by
    refine ⟨by simp, by simp, ?_, by simp⟩
    intro e he
    have := hgt e (by simpa using he)
    omega
  | c + 1, k, l, hs, hr, hgt, hall => by
    obtain ⟨e0, he0, hv0⟩ := hall (k + 1) (by omega) (by omega)
    cases l with
    | nil => simp at he0
    | cons e l =>
      have hsc := List.pairwise_cons.1 hs
      have hek : e.1 = k + 1 := by
        have := hgt e List.mem_cons_self
        rcases List.mem_cons.1 he0 with h | h
        · rw [← h]; exact hv0
        · have := hsc.1 e0 h; omega
      obtain ⟨i, hi, hi1, hx⟩ := hr e List.mem_cons_self
      have hik : i - 1 = k := by omega
      rw [hik] at hx
      have ih := take_right (D := D) c (k + 1) l hsc.2 (fun e he => hr e (List.mem_cons_of_mem _ he))
        (fun e' he' => by have := hsc.1 e' he'; omega)
        (fun v h1 h2 => by
          obtain ⟨e', he', hv⟩ := hall v (by omega) (by omega)
          rcases List.mem_cons.1 he' with h | h
          · subst h; omega
          · exact ⟨e', h, hv⟩)
      obtain ⟨i1, i2, i3, i4⟩ := ih
      refine ⟨?_, ?_, ?_, ?_⟩
      · rw [List.take_succ_cons, List.map_cons, i1]
        have hlt := (List.getElem?_eq_some_iff.1 hx).1
        rw [List.drop_eq_getElem_cons hlt, List.take_succ_cons]
        rw [List.getElem?_eq_getElem hlt] at hx
        injection hx with hx
        rw [hx]
      · intro e' he'
        rw [List.take_succ_cons] at he'
        rcases List.mem_cons.1 he' with h | h
        · subst h; omega
        · have := i2 e' h; omega
      · intro e' he'
        have := i3 e' (by simpa using he')
        omega
      · simp [List.take_succ_cons, i4]

theorem eraseP_keeps {β : Type} (p : β → Bool) : ∀ {l : List β} {x r : β}, l.find? p = some x → r ∈ l → r ≠ x →
    r ∈ l.eraseP p
  | [], _, _, h, _, _ => by simp at h
  | a :: l, x, r, h, hr, hne => by
    by_cases ha : p a = true
    · rw [List.find?_cons_of_pos ha] at h
      injection h with h
      subst h
      rw [List.eraseP_cons_of_pos ha]
      rcases List.mem_cons.1 hr with hr | hr
      · exact absurd hr hne
      · exact hr
    · rw [List.find?_cons_of_neg ha] at h
      rw [List.eraseP_cons_of_neg ha, List.mem_cons]
      rcases List.mem_cons.1 hr with hr | hr
      · exact .inl hr
      · exact .inr (eraseP_keeps p h hr hne)

/-- A reply is kept. -/
def Has (replies : Dict Name (List (Rep τ))) (r : Rep τ) : Prop := ∃ e ∈ replies, r ∈ e.2

theorem removeReply_nodup {replies : Dict Name (List (Rep τ))} (h : replies.keys.Nodup) (node : Name) (n : Int) :
    (removeReply E replies node n).keys.Nodup := by
  unfold removeReply
  split
  · exact h
  · exact Dict.nodup_keys_set h _ _

theorem has_of_removeReply {replies : Dict Name (List (Rep τ))} {node : Name} {n : Int} {r : Rep τ}
    (h : Has (removeReply E replies node n) r) : Has replies r := by
  unfold removeReply at h
  split at h
  · exact h
  · rename_i reps hg
    obtain ⟨e, he, hr⟩ := h
    rcases Dict.mem_set he with he | he
    · exact ⟨e, he, hr⟩
    · subst he
      exact ⟨_, Dict.mem_of_get? hg, List.mem_of_mem_eraseP hr⟩

theorem removeReply_has {replies : Dict Name (List (Rep τ))} (hn : replies.keys.Nodup) {node : Name} {n : Int}
    {rep r : Rep τ} (hf : findReply E replies n = some (node, rep)) (hr : Has replies r) (hne : r ≠ rep) :
    Has (removeReply E replies node n) r := by
  obtain ⟨_, reps, hm, hf2⟩ := findReply_some hf
  have hg := Dict.get?_of_mem hn hm
  unfold removeReply
  rw [hg]
  simp only
  obtain ⟨⟨nm, rs⟩, he, hr⟩ := hr
  have hg2 := Dict.get?_of_mem hn he
  by_cases hnn : nm = node
  · subst hnn
    rw [hg] at hg2
    injection hg2 with hg2
    subst hg2
    exact ⟨_, Dict.mem_set_self _ _ _, eraseP_keeps _ hf2 hr hne⟩
  · refine ⟨(nm, rs), Dict.mem_of_get? ?_, hr⟩
    rw [Dict.get?_set, if_neg (by first | exact hnn | exact fun h => hnn h.symm)]
    exact hg2

theorem findReply_isSome {replies : Dict Name (List (Rep τ))} {r : Rep τ} {n : Int} (hr : Has replies r)
    (hh : r.holds E n = true) : ∃ x, findReply E replies n = some x := by
  obtain ⟨e, he, hr⟩ := hr
  unfold findReply
  cases hf : List.findSome? (fun e : Name × List (Rep τ) =>
      (e.2.find? (fun r => r.holds E n)).map (fun r => (e.1, r))) replies with
  | some x => exact ⟨x, rfl⟩
  | none =>
    rw [List.findSome?_eq_none_iff] at hf
    have := hf e he
    rw [Option.map_eq_none_iff, List.find?_eq_none] at this
    exact absurd hh (this r hr)

theorem mapM_transform {l : List (Int × τ)} (h : ∀ e ∈ l, E.transform e.2 = some e.2) :
    l.mapM (fun e => E.transform e.2) = some (l.map Prod.snd) := by
  induction l with
  | nil => rfl
  | cons e l ih =>
    simp only [List.mapM_cons, h e List.mem_cons_self, ih (fun e he => h e (List.mem_cons_of_mem _ he))]
    rfl

/-- The loop on transactions and replies that all come from honest nodes. -/
theorem processLoop_honest (hE : E.Sound) {t : Till} {D : List τ} (hD : D.length = t.finalSize)
    (hroot : Spec.mth E.H (D.map E.ser) = t.finalHash)
    (htr : ∀ x ∈ D, E.transform x = some x) (hfill : ∀ n, ∀ x ∈ D, E.fill n x = x) :
    ∀ (m k : Nat) (txns : List (Int × τ)) (s : State τ) (done : Nat), txns.length = m → Sorted txns →
      Right D txns → (∀ e ∈ txns, (k : Int) < e.1) → s.ledger = D.take k → k ≤ D.length →
      s.replies.keys.Nodup → (∀ r, Has s.replies r → ∃ a b, HonestRange E D r a b) →
      (∀ e ∈ txns, ∃ r, Has s.replies r ∧ r.holds E e.1 = true) →
      (∀ r, Has s.replies r → ∀ n : Int, r.holds E n = true → n ≤ k ∨ ∃ e ∈ txns, e.1 = n) →
      ∃ k' c s', processLoop E s t txns done = (s', .ok (done + c)) ∧ s'.blacklisted = s.blacklisted ∧
        k ≤ k' ∧ k' ≤ D.length ∧ s'.ledger = D.take k' ∧ (∀ e ∈ txns.drop c, (k' : Int) + 1 < e.1) ∧
        (∀ e ∈ txns, e.1 ≤ k' ∨ e ∈ txns.drop c) ∧
        s'.replies.keys.Nodup ∧ (∀ r, Has s'.replies r → Has s.replies r) ∧
        (∀ e ∈ txns.drop c, ∃ r, Has s'.replies r ∧ r.holds E e.1 = true) := by
  intro m
  induction m using Nat.strongRecOn with
  | ind m ih =>
    intro k txns s done hm hs hr hgt hl hk hn hh hc1 hc2
    rw [processLoop.eq_def]
    split
    · exact ⟨k, 0, s, rfl, rfl, Nat.le_refl _, hk, hl, by simp, by simp, hn, fun _ h => h, by simp⟩
    · rename_i n x rest
      have hlen : s.ledger.length = k := by rw [hl, List.length_take]; omega
      split
      · rename_i hne
        refine ⟨k, 0, s, rfl, rfl, Nat.le_refl _, hk, hl, ?_, fun e he => .inr (by simpa using he), hn, fun _ h => h, ?_⟩
        · intro e he
          simp only [List.drop_zero] at he
          have h0 := hgt (n, x) List.mem_cons_self
          simp only at h0
          rw [hlen] at hne
          rcases List.mem_cons.1 he with h | h
          · subst h; simp only; omega
          · have := (List.pairwise_cons.1 hs).1 e h
            simp only at this; omega
        · simpa using hc1
      · rename_i heq
        have heq : n = k + 1 := by rw [hlen] at heq; omega
        obtain ⟨r0, hr0, hh0⟩ := hc1 (n, x) List.mem_cons_self
        obtain ⟨⟨node, rep⟩, hf⟩ := findReply_isSome hr0 hh0
        rw [hf]
        simp only
        obtain ⟨hrh, reps, hmem, hf2⟩ := findReply_some hf
        have hrep : Has s.replies rep := ⟨_, hmem, List.mem_of_find?_eq_some hf2⟩
        obtain ⟨a, b, hab⟩ := hh rep hrep
        have hnab := (hab.holds hE n).1 hrh
        have hb : b ≤ D.length := hab.2.2.1
        -- the first `b - k` transactions are those of the log
        obtain ⟨t1, t2, t3, t4⟩ := take_right (b - k) k ((n, x) :: rest) hs hr hgt (by
          intro v h1 h2
          rcases hc2 rep hrep v ((hab.holds hE v).2 (by omega)) with h | h
          · omega
          · exact h)
        have hcheck : toCheck E rep ((n, x) :: rest) = ((n, x) :: rest).take (b - k) := by
          unfold toCheck
          rw [hab.length]
          have e1 : ((n, x) :: rest).take (b + 1 - a) =
              ((n, x) :: rest).take (b - k) ++ (((n, x) :: rest).drop (b - k)).take (b + 1 - a - (b - k)) := by
            rw [show b + 1 - a = (b - k) + (b + 1 - a - (b - k)) by omega, List.take_add]
            simp
          rw [e1, List.filter_append]
          have e2 : (((n, x) :: rest).take (b - k)).filter (fun e => rep.holds E e.1) =
              ((n, x) :: rest).take (b - k) := by
            rw [List.filter_eq_self]
            intro e he
            have h1 := t2 e he
            have h2 := hgt e (List.mem_of_mem_take he)
            exact (hab.holds hE e.1).2 (by omega)
          have e3 : ((((n, x) :: rest).drop (b - k)).take (b + 1 - a - (b - k))).filter (fun e => rep.holds E e.1) = [] := by
            rw [List.filter_eq_nil_iff]
            intro e he
            have h1 := t3 e (List.mem_of_mem_take he)
            rw [hab.holds hE]
            omega
          rw [e2, e3, List.append_nil]
        have hmD : ∀ e ∈ ((n, x) :: rest), e.2 ∈ D := by
          intro e he
          obtain ⟨i, _, _, h⟩ := hr e he
          exact List.mem_of_getElem? h
        have hmap : (((n, x) :: rest).take (b - k)).mapM (fun e => E.transform e.2) =
            some ((D.drop k).take (b - k)) := by
          rw [mapM_transform (fun e he => htr _ (hmD e (List.mem_of_mem_take he))), t1]
        rw [hcheck, hmap]
        simp only
        have hlD : ((D.drop k).take (b - k)).length = b - k := by
          rw [List.length_take, List.length_drop]; omega
        rw [hlD, hmap]
        have hleaves : tempLeaves E s ((D.drop k).take (b - k)) = (D.take b).map E.ser := by
          unfold tempLeaves
          rw [hl]
          congr 1
          rw [show b = k + (b - k) by omega, List.take_add]
          simp
        rw [hleaves]
        have hver : verified E t ((D.take b).map E.ser) rep.proof = true := by
          unfold verified
          have := hab.2.2.2.2
          rw [hroot, hD] at this
          have hlen2 : ((D.take b).map E.ser).length = b := by simp; omega
          rw [hlen2, this]
        rw [hver]
        simp only [if_true]
        rw [if_neg (by omega)]
        have hfold : ((D.drop k).take (b - k)).foldl (fun l t => l ++ [E.fill (l.length + 1) t]) (D.take k) = D.take b := by
          have : ∀ (ts l : List τ), (∀ t ∈ ts, t ∈ D) →
              ts.foldl (fun l t => l ++ [E.fill (l.length + 1) t]) l = l ++ ts := by
            intro ts
            induction ts with
            | nil => intro l _; simp
            | cons t ts ih =>
              intro l ht
              rw [List.foldl_cons, hfill _ t (ht t List.mem_cons_self), ih _ (fun t h => ht t (List.mem_cons_of_mem _ h))]
              simp
          rw [this _ _ (fun t h => List.mem_of_mem_drop (List.mem_of_mem_take h))]
          conv => rhs; rw [show b = k + (b - k) by omega, List.take_add]
        have key := ih (((n, x) :: rest).drop (b - k)).length
          (by rw [List.length_drop, ← hm]; simp only [List.length_cons]; omega) b
          (((n, x) :: rest).drop (b - k))
          { s with
              ledger := D.take b
              replies := removeReply E s.replies node n
              hashed := s.hashed ++ hashedBy E t ((D.take b).map E.ser) rep.proof }
          (done + (b - k)) rfl (hs.sublist (List.drop_sublist _ _))
          (fun e he => hr e (List.mem_of_mem_drop he))
          (fun e he => by have := t3 e he; omega) rfl hb (removeReply_nodup hn _ _)
          (fun r h => hh r (has_of_removeReply h))
          (by
            intro e he
            obtain ⟨r, h1, h2⟩ := hc1 e (List.mem_of_mem_drop he)
            refine ⟨r, removeReply_has hn hf h1 ?_, h2⟩
            rintro rfl
            have := (hab.holds hE e.1).1 h2
            have := t3 e he
            omega)
          (by
            intro r h n' h'
            rcases hc2 r (has_of_removeReply h) n' h' with h | ⟨e, he, hen⟩
            · left; omega
            · rw [← List.take_append_drop (b - k) ((n, x) :: rest)] at he
              rcases List.mem_append.1 he with he | he
              · left
                have := t2 e he
                omega
              · exact .inr ⟨e, he, hen⟩)
        obtain ⟨k', c, s', p1, p2, p3, p4, p5, p6, p7, p8, p9, p10⟩ := key
        refine ⟨k', (b - k) + c, s', ?_, p2, by omega, p4, p5, ?_, ?_, p8, fun r h => has_of_removeReply (p9 r h), ?_⟩
        · simp only [addTxns, hl, hfold]
          rw [p1, Nat.add_assoc]
        · rw [← List.drop_drop]; exact p6
        · intro e he
          rw [← List.drop_drop]
          rw [← List.take_append_drop (b - k) ((n, x) :: rest)] at he
          rcases List.mem_append.1 he with he | he
          · left
            have := t2 e he
            omega
          · exact p7 e he
        · rw [← List.drop_drop]; exact p10

theorem drop_filter_le (b : Int) : ∀ (l : List (Int × τ)), Sorted l →
    l.drop (l.filter (fun e => decide (e.1 ≤ b))).length = l.filter (fun e => decide (b < e.1))
  | [], _ => by simp
  | e :: l, h => by
    have hc := List.pairwise_cons.1 h
    by_cases he : e.1 ≤ b
    · rw [List.filter_cons_of_pos (by simpa using he), List.filter_cons_of_neg (by simp; omega), List.length_cons,
        List.drop_succ_cons]
      exact drop_filter_le b l hc.2
    · have e1 : l.filter (fun e => decide (e.1 ≤ b)) = [] := by
        rw [List.filter_eq_nil_iff]
        intro x hx
        have := hc.1 x hx
        simp; omega
      have e2 : l.filter (fun e => decide (b < e.1)) = l := by
        rw [List.filter_eq_self]
        intro x hx
        have := hc.1 x hx
        simp; omega
      rw [List.filter_cons_of_neg (by simpa using he), e1, List.filter_cons_of_pos (by simp; omega), e2]
      rfl

/-- A node catching up `D` from honest nodes only; `dl` are the numbers delivered so far. -/
structure HInv (E : Env τ) (D : List τ) (t : Till) (dl : Int → Prop) (s : State τ) : Prop where
  till : s.till = some t
  ex : ∃ k : Nat, k ≤ D.length ∧ s.ledger = D.take k ∧ (∀ n, dl n → n ≤ k ∨ ∃ e ∈ s.pending, e.1 = n) ∧
    (s.working = true ∧ k < D.length ∧ s.completed = 0 ∨ s.working = false ∧ k = D.length ∧ s.completed = 1) ∧
    (∀ e ∈ s.pending, (k : Int) + 1 < e.1) ∧
    (∀ r, Has s.replies r → ∀ n : Int, r.holds E n = true → n ≤ k ∨ ∃ e ∈ s.pending, e.1 = n)
  right : Right D s.pending
  sorted : Sorted s.pending
  nodup : s.replies.keys.Nodup
  honest : ∀ r, Has s.replies r → ∃ a b, HonestRange E D r a b
  cov : ∀ e ∈ s.pending, ∃ r, Has s.replies r ∧ r.holds E e.1 = true
  clean : s.blacklisted = []

theorem has_add {replies : Dict Name (List (Rep τ))} (hn : replies.keys.Nodup) (frm : Name) (rep r : Rep τ) :
    Has (replies.set frm ((replies.get? frm).getD [] ++ [rep])) r ↔ Has replies r ∨ r = rep := by
  constructor
  · rintro ⟨e, he, hr⟩
    rcases Dict.mem_set he with he | he
    · exact .inl ⟨e, he, hr⟩
    · subst he
      rcases List.mem_append.1 hr with h | h
      · left
        cases hg : replies.get? frm with
        | none => rw [hg] at h; simp at h
        | some reps =>
          rw [hg] at h
          exact ⟨_, Dict.mem_of_get? hg, by simpa using h⟩
      · exact .inr (by simpa using h)
  · rintro (⟨⟨nm, rs⟩, he, hr⟩ | rfl)
    · have hg := Dict.get?_of_mem hn he
      by_cases h : nm = frm
      · subst h
        refine ⟨_, Dict.mem_set_self _ _ _, ?_⟩
        rw [hg]
        exact List.mem_append_left _ hr
      · refine ⟨(nm, rs), Dict.mem_of_get? ?_, hr⟩
        rw [Dict.get?_set, if_neg (by first | exact h | exact fun e => h e.symm)]
        exact hg
    · exact ⟨_, Dict.mem_set_self _ _ _, by simp⟩

theorem processLoop_fields : ∀ (m : Nat) (t : Till) (txns : List (Int × τ)) (s : State τ) (done : Nat),
    txns.length = m →
      (processLoop E s t txns done).1.pending = s.pending ∧
      (processLoop E s t txns done).1.working = s.working ∧
      (processLoop E s t txns done).1.till = s.till ∧
      (processLoop E s t txns done).1.completed = s.completed := by
  intro m
  induction m using Nat.strongRecOn with
  | ind m ih =>
    intro t txns s done hm
    rw [processLoop.eq_def]
    split
    · exact ⟨rfl, rfl, rfl, rfl⟩
    · rename_i n x rest
      split
      · exact ⟨rfl, rfl, rfl, rfl⟩
      · split
        · exact ⟨rfl, rfl, rfl, rfl⟩
        · simp only
          split
          · exact ⟨rfl, rfl, rfl, rfl⟩
          · split
            · split
              · exact ⟨rfl, rfl, rfl, rfl⟩
              · split
                · exact ⟨rfl, rfl, rfl, rfl⟩
                · rename_i checked _ _ _ added _ hne
                  exact ih (((n, x) :: rest).drop checked.length).length
                    (by rw [List.length_drop, ← hm]; simp only [List.length_cons]; omega) t _ _ _ rfl
            · exact ⟨rfl, rfl, rfl, rfl⟩

theorem HInv.rep (hE : E.Sound) {t : Till} {D : List τ} (hD : D.length = t.finalSize)
    (hroot : Spec.mth E.H (D.map E.ser) = t.finalHash)
    (htr : ∀ x ∈ D, E.transform x = some x) (hfill : ∀ n, ∀ x ∈ D, E.fill n x = x)
    {dl : Int → Prop} {s : State τ} (h : HInv E D t dl s) {r : Rep τ} {a b : Nat} (hr : HonestRange E D r a b)
    (frm : Name) :
    (s.processRep E r frm).2 = none ∧
    HInv E D t (fun n => dl n ∨ ((a : Int) ≤ n ∧ n ≤ b)) (s.processRep E r frm).1 := by
  obtain ⟨k, hk, hl, hdl, hw, hp1, hcov2⟩ := h.ex
  have hlen : s.ledger.length = k := by rw [hl, List.length_take]; omega
  have hb : b ≤ D.length := hr.2.2.1
  have ha : 1 ≤ a := hr.1
  unfold State.processRep
  rw [h.till]
  rcases hw with ⟨hw, hkl, hcomp⟩ | ⟨hw, hkl, hcomp⟩
  case inr =>
    rw [hw]
    refine ⟨rfl, h.till, ⟨k, hk, hl, ?_, .inr ⟨hw, hkl, hcomp⟩, hp1, hcov2⟩, h.right, h.sorted, h.nodup, h.honest, h.cov, h.clean⟩
    rintro n (hn | hn)
    · exact hdl n hn
    · left; omega
  rw [hw]
  simp only
  rw [hr.numbered hE]
  simp only [hlen, interesting_honest]
  by_cases hany : (honestNs D a b).any (fun e => decide (e.1 > (k : Int))) = true
  case neg =>
    rw [if_neg hany]
    simp only [List.isEmpty_nil, if_true]
    refine ⟨trivial, rfl, ⟨k, hk, hl, ?_, .inl ⟨rfl, hkl, hcomp⟩, hp1, hcov2⟩, h.right, h.sorted, h.nodup, h.honest, h.cov, h.clean⟩
    rintro n (hn | hn)
    · exact hdl n hn
    · left
      simp only [Bool.not_eq_true, List.any_eq_false, decide_eq_true_eq] at hany
      have hlt : n.toNat - 1 < D.length := by omega
      have := hany (n, D[n.toNat - 1]) ((mem_honestNs ha).2 ⟨n.toNat, by omega, by omega, by omega, List.getElem?_eq_getElem hlt⟩)
      simp only at this
      omega
  case pos =>
    rw [if_pos hany]
    have hne : (honestNs D a b).isEmpty = false := by
      cases hh : honestNs D a b with
      | nil => rw [hh] at hany; simp at hany
      | cons _ _ => rfl
    rw [hne]
    simp only [Bool.false_eq_true, if_false]
    have hsN : Sorted (honestNs D a b) := sorted_of_consecutive _ (consecutive_zipIdx _ _)
    have hms := merge_sorted h.sorted hsN
    have hmr : Right D (mergeTxns s.pending (honestNs D a b)) := by
      intro e he
      rcases mem_mergeTxns.1 he with he | ⟨he, _⟩
      · exact h.right e he
      · obtain ⟨i, h1, h2, h3, h4⟩ := (mem_honestNs ha (n := e.1) (x := e.2)).1 he
        exact ⟨i, h1, by omega, h4⟩
    -- every number delivered, or in a reply kept, is done or in the merged list
    have hmem : ∀ n : Int, (∃ e ∈ s.pending, e.1 = n) → ∃ e ∈ mergeTxns s.pending (honestNs D a b), e.1 = n :=
      fun n ⟨e, he, hn⟩ => ⟨e, mem_mergeTxns.2 (.inl he), hn⟩
    have hmemN : ∀ n : Int, (a : Int) ≤ n → n ≤ b → ∃ e ∈ mergeTxns s.pending (honestNs D a b), e.1 = n := by
      intro n h1 h2
      by_cases hx : ∃ e ∈ s.pending, e.1 = n
      · exact hmem n hx
      · have hlt : n.toNat - 1 < D.length := by omega
        refine ⟨(n, D[n.toNat - 1]), mem_mergeTxns.2 (.inr ⟨(mem_honestNs ha).2
          ⟨n.toNat, by omega, by omega, by omega, List.getElem?_eq_getElem hlt⟩, ?_⟩), rfl⟩
        intro x hx' he
        exact hx ⟨x, hx', he⟩
    generalize hM : mergeTxns s.pending (honestNs D a b) = M at *
    have hdrop := drop_filter_le (k : Int) M hms
    unfold processTxns
    simp only [hlen]
    generalize hdone : (M.filter (fun e => decide (e.1 ≤ (k : Int)))).length = done0 at *
    have hgt : ∀ e ∈ M.drop done0, (k : Int) < e.1 := by
      intro e he
      rw [hdrop] at he
      simpa using (List.mem_filter.1 he).2
    have hin : ∀ e ∈ M, (k : Int) < e.1 → e ∈ M.drop done0 := by
      intro e he h1
      rw [hdrop]
      exact List.mem_filter.2 ⟨he, by simpa using h1⟩
    have key := processLoop_honest hE hD hroot htr hfill _ k (M.drop done0)
      { s with working := true
               till := some t
               waiting := s.waiting.filter (fun x => decide (x ≠ frm))
               replies := s.replies.set frm ((s.replies.get? frm).getD [] ++ [r]) } done0 rfl
      (hms.sublist (List.drop_sublist _ _)) (fun e he => hmr e (List.mem_of_mem_drop he)) hgt hl hk
      (Dict.nodup_keys_set h.nodup _ _)
      (by
        intro r' hr'
        rcases (has_add h.nodup frm r r').1 hr' with h1 | h1
        · exact h.honest r' h1
        · rw [h1]; exact ⟨a, b, hr⟩)
      (by
        intro e he
        have he := List.mem_of_mem_drop he
        rw [← hM] at he
        rcases mem_mergeTxns.1 he with h1 | ⟨h1, _⟩
        · obtain ⟨r', h2, h3⟩ := h.cov e h1
          exact ⟨r', (has_add h.nodup frm r r').2 (.inl h2), h3⟩
        · refine ⟨r, (has_add h.nodup frm r r).2 (.inr rfl), ?_⟩
          obtain ⟨i, h3, h4, h5, _⟩ := (mem_honestNs ha (n := e.1) (x := e.2)).1 h1
          exact (hr.holds hE e.1).2 (by omega))
      (by
        intro r' hr' n hn
        have : n ≤ k ∨ ∃ e ∈ M, e.1 = n := by
          rcases (has_add h.nodup frm r r').1 hr' with h1 | h1
          · rcases hcov2 r' h1 n hn with h2 | h2
            · exact .inl h2
            · exact .inr (hmem n h2)
          · subst h1
            have := (hr.holds hE n).1 hn
            exact .inr (hmemN n this.1 this.2)
        rcases this with h1 | ⟨e, he, hen⟩
        · exact .inl h1
        · by_cases h2 : n ≤ k
          · exact .inl h2
          · exact .inr ⟨e, hin e he (by omega), hen⟩)
    have hfields := processLoop_fields (E := E) _ t (M.drop done0)
      { s with working := true
               till := some t
               waiting := s.waiting.filter (fun x => decide (x ≠ frm))
               replies := s.replies.set frm ((s.replies.get? frm).getD [] ++ [r]) } done0 rfl
    obtain ⟨k', c, s', p1, p2, p3, p4, p5, p6, p7, p8, p9, p10⟩ := key
    rw [p1] at hfields
    obtain ⟨f1, f2, f3, f4⟩ := hfields
    simp only at f1 f2 f3 f4
    rw [p1]
    simp only
    have hlen' : s'.ledger.length = k' := by rw [p5, List.length_take]; omega
    have hdl' : ∀ n, (dl n ∨ ((a : Int) ≤ n ∧ n ≤ b)) → n ≤ k' ∨ ∃ e ∈ M.drop (done0 + c), e.1 = n := by
      intro n hn
      have : n ≤ k ∨ ∃ e ∈ M, e.1 = n := by
        rcases hn with hn | hn
        · rcases hdl n hn with h1 | h1
          · exact .inl h1
          · exact .inr (hmem n h1)
        · exact .inr (hmemN n hn.1 hn.2)
      rcases this with h1 | ⟨e, he, hen⟩
      · left; omega
      · by_cases h2 : n ≤ k
        · left; omega
        · rcases p7 e (hin e he (by omega)) with h3 | h3
          · left; omega
          · rw [List.drop_drop] at h3
            exact .inr ⟨e, h3, hen⟩
    rw [hlen', ← hD]
    by_cases hfin : k' ≥ D.length
    · rw [if_pos hfin]
      have hk' : k' = D.length := by omega
      refine ⟨trivial, ?_⟩
      refine ⟨by simp only [State.finish, f3], ⟨k', p4, p5, ?_, .inr ⟨rfl, hk', ?_⟩, ?_, ?_⟩, ?_, ?_, ?_, ?_, ?_, ?_⟩
      · intro n hn
        left
        rcases hdl' n hn with h1 | ⟨e, he, hen⟩
        · exact h1
        · obtain ⟨i, h1, h2, h3⟩ := hmr e (List.mem_of_mem_drop he)
          have := (List.getElem?_eq_some_iff.1 h3).1
          omega
      · simp only [State.finish, f4, hcomp]
      · simp [State.finish]
      · intro r' hr'; obtain ⟨e, he, _⟩ := hr'; simp [State.finish] at he
      · intro e he; simp [State.finish] at he
      · simp [State.finish]
      · simp [State.finish, Dict.keys]
      · intro r' hr'; obtain ⟨e, he, _⟩ := hr'; simp [State.finish] at he
      · simp [State.finish]
      · simp only [State.finish, p2, h.clean]
    · rw [if_neg hfin]
      refine ⟨trivial, ?_⟩
      refine ⟨f3, ⟨k', p4, p5, hdl', .inl ⟨?_, by omega, ?_⟩, ?_, ?_⟩, ?_, ?_, p8, ?_, ?_, ?_⟩
      · exact f2
      · simp only [f4, hcomp]
      · intro e he
        exact p6 e (by rw [List.drop_drop]; exact he)
      · intro r' hr' n hn
        have h0 := p9 r' hr'
        simp only at h0
        have : n ≤ k ∨ ∃ e ∈ M, e.1 = n := by
          rcases (has_add h.nodup frm r r').1 h0 with h1 | h1
          · rcases hcov2 r' h1 n hn with h2 | h2
            · exact .inl h2
            · exact .inr (hmem n h2)
          · subst h1
            have := (hr.holds hE n).1 hn
            exact .inr (hmemN n this.1 this.2)
        rcases this with h1 | ⟨e, he, hen⟩
        · left; omega
        · by_cases h2 : n ≤ k
          · left; omega
          · rcases p7 e (hin e he (by omega)) with h3 | h3
            · left; omega
            · rw [List.drop_drop] at h3
              exact .inr ⟨e, h3, hen⟩
      · exact fun e he => hmr e (List.mem_of_mem_drop he)
      · exact hms.sublist (List.drop_sublist _ _)
      · intro r' hr'
        have h0 := p9 r' hr'
        simp only at h0
        rcases (has_add h.nodup frm r r').1 h0 with h1 | h1
        · exact h.honest r' h1
        · rw [h1]; exact ⟨a, b, hr⟩
      · intro e he
        exact p10 e (by rw [List.drop_drop]; exact he)
      · rw [← h.clean]; exact p2

end
end Verif.Catchup
