import Verif.Spec.Pipeline
import Verif.Proofs.Count
/-!
# Lemmas about the write pipeline
-/
namespace Verif.Pipeline
open Verif.Spec.Pipeline

variable {σ α : Type}

/-! ## Batches on a ledger -/

theorem txnsOn_append (a b : List (Batch α)) (l : Nat) : txnsOn (a ++ b) l = txnsOn a l ++ txnsOn b l := by
  simp [txnsOn]

theorem txnsOn_nil (l : Nat) : txnsOn ([] : List (Batch α)) l = [] := rfl

theorem txnsOn_single (b : Batch α) (l : Nat) : txnsOn [b] l = if b.lid = l then b.txns else [] := by
  by_cases h : b.lid = l <;> simp [txnsOn, h]

theorem stateAfter_append (upd : σ → Txn → σ) (s : σ) (a b : List Txn) :
    stateAfter upd s (a ++ b) = stateAfter upd (stateAfter upd s a) b := by
  simp [stateAfter]

/-! ## Many transactions at once -/

/-- Put transactions on one ledger and its state. -/
def addTxns (E : Env σ α) (db : Dbs σ α) (l : Nat) (ts : List Txn) : Dbs σ α :=
  setSt (setLed db l { (db.led l) with unc := (db.led l).unc ++ ts }) l
    { (db.st l) with head := stateAfter E.upd (db.st l).head ts }

theorem addTxns_nil (E : Env σ α) (db : Dbs σ α) (l : Nat) : addTxns E db l [] = db := by
  cases db with
  | mk led st a b c =>
    simp only [addTxns, setSt, setLed, stateAfter, List.foldl_nil, List.append_nil]
    congr 1
    · funext i; by_cases h : i = l <;> simp [h]
    · funext i; by_cases h : i = l <;> simp [h]

theorem addTxns_cons (E : Env σ α) (db : Dbs σ α) (r : Req) (t : Nat) (ts : List Txn) :
    addTxns E (applyReq E db r t) r.lid ts = addTxns E db r.lid (⟨r, t⟩ :: ts) := by
  simp only [addTxns, applyReq, setSt, setLed, stateAfter, List.foldl_cons, if_true, List.append_assoc,
    List.singleton_append]
  congr 1
  · funext i; by_cases h : i = r.lid <;> simp [h]
  · funext i; by_cases h : i = r.lid <;> simp [h]

theorem applyReqs_spec (E : Env σ α) (t l : Nat) (rs : List Req) : ∀ (db : Dbs σ α) (i : Nat),
    (∀ r ∈ rs, r.lid = l) →
    (applyReqs E db t rs i).1 = addTxns E db l (applyReqs E db t rs i).2.1 ∧
    (applyReqs E db t rs i).2.1.length + (applyReqs E db t rs i).2.2.1.length = rs.length := by
  induction rs with
  | nil => intro db i _; exact ⟨(addTxns_nil E db l).symm, rfl⟩
  | cons r rs ih =>
    intro db i h
    have hr : r.lid = l := h r (List.mem_cons_self ..)
    have hrs : ∀ r ∈ rs, r.lid = l := fun x hx => h x (List.mem_cons_of_mem _ hx)
    simp only [applyReqs]
    cases E.verdict db r t with
    | ok =>
      obtain ⟨h1, h2⟩ := ih (applyReq E db r t) (i + 1) hrs
      refine ⟨?_, by simp only [List.length_cons]; omega⟩
      simp only [h1]
      subst hr
      exact addTxns_cons ..
    | invalid =>
      obtain ⟨h1, h2⟩ := ih db (i + 1) hrs
      exact ⟨h1, by simp only [List.length_cons]; omega⟩
    | suspicious =>
      obtain ⟨h1, h2⟩ := ih db (i + 1) hrs
      exact ⟨h1, by simp only [List.length_cons]; omega⟩

theorem consume_spec (E : Env σ α) (t l : Nat) (rs : List Req) : ∀ (db : Dbs σ α) (i : Nat),
    (∀ r ∈ rs, r.lid = l) →
    (consume E db t rs i).1 = addTxns E db l (consume E db t rs i).2.1 ∧
    (consume E db t rs i).2.1.length + (consume E db t rs i).2.2.2.length = (consume E db t rs i).2.2.1.length ∧
    (consume E db t rs i).2.2.2.Pairwise (· < ·) ∧
    (∀ j ∈ (consume E db t rs i).2.2.2, i ≤ j ∧ j < i + (consume E db t rs i).2.2.1.length) := by
  induction rs with
  | nil => intro db i _; exact ⟨(addTxns_nil E db l).symm, rfl, List.Pairwise.nil, by simp [consume]⟩
  | cons r rs ih =>
    intro db i h
    have hr : r.lid = l := h r (List.mem_cons_self ..)
    have hrs : ∀ r ∈ rs, r.lid = l := fun x hx => h x (List.mem_cons_of_mem _ hx)
    simp only [consume]
    cases E.verdict db r t with
    | ok =>
      obtain ⟨h1, h2, h3, h4⟩ := ih (applyReq E db r t) (i + 1) hrs
      refine ⟨?_, by simp only [List.length_cons]; omega, h3, ?_⟩
      · simp only [h1]
        subst hr
        exact addTxns_cons ..
      · intro j hj
        have := h4 j hj
        simp only [List.length_cons]; omega
    | invalid =>
      obtain ⟨h1, h2, h3, h4⟩ := ih db (i + 1) hrs
      refine ⟨h1, by simp only [List.length_cons]; omega, ?_, ?_⟩
      · refine List.Pairwise.cons ?_ h3
        intro j hj
        have := h4 j hj
        omega
      · intro j hj
        simp only [List.length_cons]
        rcases List.mem_cons.1 hj with hj | hj
        · omega
        · have := h4 j hj; omega
    | suspicious => exact ih db i hrs

/-! ## The number of valid requests -/

theorem validReqs_length (pp : PP σ) {d : List Nat} (hd : pp.discarded = some d) (hn : d.Nodup)
    (hr : ∀ i ∈ d, i < pp.reqs.length) : (validReqs pp).length = pp.reqs.length - d.length := by
  have h1 : (validReqs pp).length = ((List.range pp.reqs.length).filter (fun i => !(d.contains i))).length := by
    have e : List.range pp.reqs.length = pp.reqs.zipIdx.map Prod.snd := by
      rw [List.zipIdx_map_snd, List.range_eq_range']
    rw [e, List.filter_map, List.length_map]
    simp only [validReqs, hd, Option.getD_some, List.length_map]
    rfl
  have h2 := length_filter_split (List.range pp.reqs.length) (fun i => d.contains i)
  have h3 : ((List.range pp.reqs.length).filter (fun i => d.contains i)).length = d.length := by
    apply Nat.le_antisymm
    · refine length_le_of_subset (List.Pairwise.filter _ List.nodup_range) ?_
      intro x hx
      simpa using (List.mem_filter.1 hx).2
    · refine length_le_of_subset hn ?_
      intro x hx
      exact List.mem_filter.2 ⟨List.mem_range.2 (hr x hx), by simpa using hx⟩
  simp only [List.length_range] at h2
  rw [h1]
  omega

/-! ## Databases and batches -/

/-- The databases match the batches, and so does the tracker. -/
structure Match (E : Env σ α) (base db : Dbs σ α) (ex pe : List (Batch α)) : Prop where
  exact : Exactly E.upd base db ex pe
  audited : ∀ b ∈ pe, b.audit.isSome = true
  trk : db.trk = ⟨db.audCom.length, List.range' (db.audCom.length + 1) pe.length⟩

theorem filterMap_length {β γ : Type} (f : β → Option γ) (l : List β) (h : ∀ b ∈ l, (f b).isSome = true) :
    (l.filterMap f).length = l.length := by
  induction l with
  | nil => rfl
  | cons a l ih =>
    have ha := h a (List.mem_cons_self ..)
    have hl := ih (fun b hb => h b (List.mem_cons_of_mem _ hb))
    cases hf : f a with
    | none => simp [hf] at ha
    | some v => simp [hf, hl]

theorem Match.start (E : Env σ α) {base : Dbs σ α} (h : Clean base) : Match E base base [] [] := by
  refine ⟨⟨?_, ?_, ?_, ?_, ?_, ?_⟩, ?_, ?_⟩
  · intro l; simp [txnsOn]
  · intro l; simp [txnsOn, h.led]
  · intro l; simp [txnsOn, stateAfter]
  · intro l; simp [txnsOn, stateAfter, h.st]
  · simp
  · simp [h.aud]
  · simp
  · simp [h.trk]

theorem Match.apply {E : Env σ α} {base db : Dbs σ α} {ex pe : List (Batch α)} (m : Match E base db ex pe)
    (k : Key) (l t : Nat) (ts : List Txn) :
    Match E base (postApply E (addTxns E db l ts) k l t true) ex
      (pe ++ [⟨k, l, ts, newAudit E (addTxns E db l ts) k l t true⟩]) := by
  obtain ⟨x, hs, ht⟩ := m
  refine ⟨⟨?_, ?_, ?_, ?_, ?_, ?_⟩, ?_, ?_⟩
  · intro i
    by_cases h : i = l <;> simp [postApply, addTxns, setSt, setLed, h, x.ledger]
  · intro i
    rw [txnsOn_append, txnsOn_single]
    by_cases h : i = l
    · simp [postApply, addTxns, setSt, setLed, h, x.uncommitted]
    · simp [postApply, addTxns, setSt, setLed, h, x.uncommitted, Ne.symm h]
  · intro i
    by_cases h : i = l <;> simp [postApply, addTxns, setSt, setLed, h, x.state]
  · intro i
    rw [← List.append_assoc, txnsOn_append _ [_], txnsOn_single]
    by_cases h : i = l
    · simp [postApply, addTxns, setSt, setLed, h, x.head, stateAfter_append]
    · simp [postApply, addTxns, setSt, setLed, h, x.head, Ne.symm h]
  · simp [postApply, addTxns, setSt, setLed, x.audit]
  · simp [postApply, addTxns, setSt, setLed, x.auditUnc, newAudit]
  · intro b hb
    rcases List.mem_append.1 hb with hb | hb
    · exact hs b hb
    · simp only [List.mem_singleton] at hb
      subst hb; rfl
  · have hl : db.audUnc.length = pe.length := by rw [x.auditUnc]; exact filterMap_length _ _ hs
    simp only [postApply, addTxns, setSt, setLed, newAudit, ht, List.length_append, List.length_singleton,
      if_true, Option.toList_some]
    rw [List.range'_concat]
    congr 3
    omega

theorem discard_append {β : Type} (a b : List β) : discard (a ++ b) b.length = some a := by
  unfold discard
  split
  · have : b = [] := List.eq_nil_of_length_eq_zero ‹_›
    simp [this]
  · rw [if_neg (by simp)]
    simp

theorem Match.revert {E : Env σ α} {base db : Dbs σ α} {ex q : List (Batch α)} {b : Batch α}
    (m : Match E base db ex (q ++ [b])) :
    ∃ db', Pipeline.revert db b.lid (stateAfter E.upd (base.st b.lid).com (txnsOn (ex ++ q) b.lid)) b.txns.length = some db' ∧
      Match E base db' ex q := by
  obtain ⟨x, hs, ht⟩ := m
  have hb : b.audit.isSome = true := hs b (by simp)
  have hq : ∀ c ∈ q, c.audit.isSome = true := fun c hc => hs c (by simp [hc])
  obtain ⟨a, ha⟩ := Option.isSome_iff_exists.1 hb
  have hlen : (q.filterMap (fun b => b.audit)).length = q.length := filterMap_length _ _ hq
  have hu : (db.led b.lid).unc = txnsOn q b.lid ++ b.txns := by
    rw [x.uncommitted, txnsOn_append, txnsOn_single, if_pos rfl]
  have hau : db.audUnc = q.filterMap (fun b => b.audit) ++ [a] := by
    rw [x.auditUnc]; simp [ha]
  have hlast : db.trk.unc.getLast? = some (db.audCom.length + 1 + q.length) := by
    rw [ht]; simp [List.range'_concat]
  have hrest : db.trk.unc.dropLast = List.range' (db.audCom.length + 1) q.length := by
    rw [ht]; simp [List.range'_concat]
  have hprev : (List.range' (db.audCom.length + 1) q.length).getLast?.getD db.trk.last = db.audCom.length + q.length := by
    rw [ht]
    cases hq' : q.length with
    | zero => simp
    | succ n => simp [List.range'_concat]; omega
  have hd : discard (db.led b.lid).unc b.txns.length = some (txnsOn q b.lid) := by
    rw [hu]; exact discard_append ..
  have hda : discard db.audUnc (db.audCom.length + 1 + q.length - (db.audCom.length + q.length)) =
      some (q.filterMap (fun b => b.audit)) := by
    rw [hau, show db.audCom.length + 1 + q.length - (db.audCom.length + q.length) = [a].length by
      simp only [List.length_singleton]; omega]
    exact discard_append ..
  refine ⟨{ (setLed (setSt db b.lid { (db.st b.lid) with head := stateAfter E.upd (base.st b.lid).com (txnsOn (ex ++ q) b.lid) })
    b.lid { (db.led b.lid) with unc := txnsOn q b.lid }) with
      audUnc := q.filterMap (fun b => b.audit),
      trk := { db.trk with unc := List.range' (db.audCom.length + 1) q.length } }, ?_, ?_⟩
  · have e1 : (setSt db b.lid { (db.st b.lid) with head := stateAfter E.upd (base.st b.lid).com (txnsOn (ex ++ q) b.lid) }).led
        = db.led := rfl
    simp only [Pipeline.revert, hd, Option.bind_some, postReject, setLed, setSt, hlast, hrest, hprev, hda, Option.map_some]
  · refine ⟨⟨?_, ?_, ?_, ?_, ?_, ?_⟩, ?_, ?_⟩
    · intro i
      by_cases h : i = b.lid <;> simp [setSt, setLed, h, x.ledger]
    · intro i
      by_cases h : i = b.lid
      · simp [setSt, setLed, h]
      · simp [setSt, setLed, h, x.uncommitted, txnsOn_append, txnsOn_single, Ne.symm h]
    · intro i
      by_cases h : i = b.lid <;> simp [setSt, setLed, h, x.state]
    · intro i
      by_cases h : i = b.lid
      · simp [setSt, setLed, h]
      · simp only [setSt, setLed, h, if_false, x.head]
        rw [← List.append_assoc, txnsOn_append _ [b], txnsOn_single, if_neg (Ne.symm h), List.append_nil]
    · simp [setSt, setLed, x.audit]
    · simp
    · exact hq
    · simp [setSt, setLed, ht]

theorem Match.commit {E : Env σ α} {base db : Dbs σ α} {ex q : List (Batch α)} {b : Batch α}
    (m : Match E base db ex (b :: q)) {root : Nat} {sr : σ}
    (hroot : root = E.rootL ((base.led b.lid).com ++ txnsOn (ex ++ [b]) b.lid))
    (hsr : sr = stateAfter E.upd (base.st b.lid).com (txnsOn (ex ++ [b]) b.lid)) :
    ∃ db', commitBatch E db b.lid b.txns.length root sr = some db' ∧ Match E base db' (ex ++ [b]) q ∧
      (db.led b.lid).unc.take b.txns.length = b.txns := by
  obtain ⟨x, hs, ht⟩ := m
  have hb : b.audit.isSome = true := hs b (by simp)
  have hq : ∀ c ∈ q, c.audit.isSome = true := fun c hc => hs c (by simp [hc])
  obtain ⟨a, ha⟩ := Option.isSome_iff_exists.1 hb
  have hu : (db.led b.lid).unc = b.txns ++ txnsOn q b.lid := by
    rw [x.uncommitted, show b :: q = [b] ++ q from rfl, txnsOn_append, txnsOn_single, if_pos rfl]
  have hau : db.audUnc = a :: q.filterMap (fun b => b.audit) := by
    rw [x.auditUnc]; simp [ha]
  have htk : (db.led b.lid).unc.take b.txns.length = b.txns := by rw [hu]; simp
  have htd : (db.led b.lid).unc.drop b.txns.length = txnsOn q b.lid := by rw [hu]; simp
  have hcom : (db.led b.lid).com ++ b.txns = (base.led b.lid).com ++ txnsOn (ex ++ [b]) b.lid := by
    rw [x.ledger, txnsOn_append, txnsOn_single, if_pos rfl, List.append_assoc]
  have htrk : db.trk.unc = (db.audCom.length + 1) :: List.range' (db.audCom.length + 2) q.length := by
    rw [ht]; simp [List.range'_succ]
  refine ⟨{ (setSt (setLed db b.lid ⟨(db.led b.lid).com ++ b.txns, txnsOn q b.lid⟩) b.lid { (db.st b.lid) with com := sr }) with
      audCom := db.audCom ++ [a], audUnc := q.filterMap (fun b => b.audit),
      trk := ⟨db.audCom.length + 1, List.range' (db.audCom.length + 2) q.length⟩ }, ?_, ?_, htk⟩
  · have hlast : db.trk.last = db.audCom.length := by rw [ht]
    simp only [commitBatch, commitTxns, htk, htd, hcom, hroot, ne_eq, not_true, if_false, commitAudit, setSt, setLed, htrk]
    simp [hlast, hau]
  · refine ⟨⟨?_, ?_, ?_, ?_, ?_, ?_⟩, ?_, ?_⟩
    · intro i
      by_cases h : i = b.lid
      · simp [setSt, setLed, h, hcom]
      · simp [setSt, setLed, h, x.ledger, txnsOn_append, txnsOn_single, Ne.symm h]
    · intro i
      by_cases h : i = b.lid
      · simp [setSt, setLed, h]
      · simp only [setSt, setLed, h, if_false, x.uncommitted]
        rw [show b :: q = [b] ++ q from rfl, txnsOn_append, txnsOn_single, if_neg (Ne.symm h), List.nil_append]
    · intro i
      by_cases h : i = b.lid
      · simp [setSt, setLed, h, hsr]
      · simp [setSt, setLed, h, x.state, txnsOn_append, txnsOn_single, Ne.symm h]
    · intro i
      have e : ex ++ [b] ++ q = ex ++ b :: q := by simp
      rw [e, ← x.head]
      by_cases h : i = b.lid <;> simp [setSt, setLed, h]
    · simp [x.audit, ha]
    · simp
    · exact hq
    · simp

/-! ## The node -/

/-- A kept PRE-PREPARE says what its batch did, on top of the batches before. -/
structure Fits (E : Env σ α) (base : Dbs σ α) (pre : List (Batch α)) (b : Batch α) (pp : PP σ) : Prop where
  key : pp.key = b.key
  lid : pp.lid = b.lid
  count : (validReqs pp).length = b.txns.length
  root : pp.txnRoot = E.rootL ((base.led b.lid).com ++ txnsOn (pre ++ [b]) b.lid)
  state : pp.stateRoot = stateAfter E.upd (base.st b.lid).com (txnsOn (pre ++ [b]) b.lid)

/-- The same for a row of batches. -/
def Chain (E : Env σ α) (base : Dbs σ α) : List (Batch α) → List (Batch α × PP σ) → Prop
  | _, [] => True
  | pre, x :: xs => Fits E base pre x.1 x.2 ∧ Chain E base (pre ++ [x.1]) xs

/-- What `batches` holds for a row of batches. -/
def entries (E : Env σ α) (base : Dbs σ α) : List (Batch α) → List (Batch α × PP σ) → Dict Key (Entry σ)
  | _, [] => []
  | pre, x :: xs =>
    (x.1.key, ⟨x.1.lid, x.1.txns.length, stateAfter E.upd (base.st x.1.lid).com (txnsOn pre x.1.lid)⟩) ::
      entries E base (pre ++ [x.1]) xs

theorem chain_snoc (E : Env σ α) (base : Dbs σ α) (x : Batch α × PP σ) (xs : List (Batch α × PP σ)) :
    ∀ pre, Chain E base pre (xs ++ [x]) ↔ Chain E base pre xs ∧ Fits E base (pre ++ xs.map Prod.fst) x.1 x.2 := by
  induction xs with
  | nil => intro pre; simp [Chain]
  | cons y ys ih =>
    intro pre
    simp only [List.cons_append, Chain, ih, List.map_cons, List.append_assoc, and_assoc]
    simp

theorem entries_snoc (E : Env σ α) (base : Dbs σ α) (x : Batch α × PP σ) (xs : List (Batch α × PP σ)) :
    ∀ pre, entries E base pre (xs ++ [x]) = entries E base pre xs ++
      [(x.1.key, ⟨x.1.lid, x.1.txns.length,
        stateAfter E.upd (base.st x.1.lid).com (txnsOn (pre ++ xs.map Prod.fst) x.1.lid)⟩)] := by
  induction xs with
  | nil => intro pre; simp [entries]
  | cons y ys ih => intro pre; simp [entries, ih]

theorem entries_keys (E : Env σ α) (base : Dbs σ α) (xs : List (Batch α × PP σ)) :
    ∀ pre, (entries E base pre xs).map Prod.fst = xs.map (fun x => x.1.key) := by
  induction xs with
  | nil => intro pre; rfl
  | cons y ys ih => intro pre; simp [entries, ih]

/-- What holds of a node: the batches executed, those ordered and waiting for the node, and those not ordered. -/
structure Inv (E : Env σ α) (base : Dbs σ α) (n : Node σ α) (ex : List (Batch α)) (P1 P2 : List (Batch α × PP σ)) :
    Prop where
  alive : n.dead = false
  m : Match E base n.db ex ((P1 ++ P2).map Prod.fst)
  chain : Chain E base ex (P1 ++ P2)
  box : n.outbox = P1.map Prod.snd
  old : ∃ old, n.batches = old ++ entries E base (ex ++ P1.map Prod.fst) P2 ∧ ∀ e ∈ old, e.1.seq ≤ n.lastOrdered.seq
  views : ∀ e ∈ n.batches, e.1.view = n.view
  sorted : (n.batches.map (fun e => e.1.seq)).Pairwise (· < ·)
  new : ∀ x ∈ P2, n.lastOrdered.seq < x.1.key.seq ∧ x.1.key.seq ≤ n.lastPpSeq ∧ n.pps.get? x.1.key = some x.2
  lo : n.lastOrdered.seq ≤ n.lastPpSeq

theorem Inv.start (E : Env σ α) {base : Dbs σ α} (h : Clean base) : Inv E base (start base) [] [] [] :=
  ⟨rfl, Match.start E h, trivial, rfl, ⟨[], rfl, by simp⟩, by simp [Pipeline.start], by simp [Pipeline.start],
    by simp, Nat.le_refl _⟩

theorem set_new {κ β : Type} [DecidableEq κ] (d : Dict κ β) (k : κ) (v : β) (h : ∀ e ∈ d, e.1 ≠ k) :
    d.set k v = d ++ [(k, v)] := by
  induction d with
  | nil => rfl
  | cons e d ih =>
    have he : e.1 ≠ k := h e (List.mem_cons_self ..)
    have hd := ih (fun x hx => h x (List.mem_cons_of_mem _ hx))
    cases e with
    | mk a b =>
      simp only [Dict.set]
      rw [if_neg he, hd]
      rfl

theorem Inv.mem_batches {E : Env σ α} {base : Dbs σ α} {n : Node σ α} {ex : List (Batch α)}
    {P1 P2 : List (Batch α × PP σ)} (i : Inv E base n ex P1 P2) {e : Key × Entry σ} (he : e ∈ n.batches) :
    e.1.seq ≤ n.lastOrdered.seq ∨ ∃ x ∈ P2, x.1.key = e.1 := by
  obtain ⟨old, h, ho⟩ := i.old
  rw [h] at he
  rcases List.mem_append.1 he with he | he
  · exact Or.inl (ho e he)
  · have hk : e.1 ∈ (entries E base (ex ++ P1.map Prod.fst) P2).map Prod.fst := List.mem_map.2 ⟨e, he, rfl⟩
    rw [entries_keys] at hk
    obtain ⟨x, hx, hxe⟩ := List.mem_map.1 hk
    exact Or.inr ⟨x, hx, hxe⟩

theorem Inv.view_of {E : Env σ α} {base : Dbs σ α} {n : Node σ α} {ex : List (Batch α)}
    {P1 P2 : List (Batch α × PP σ)} (i : Inv E base n ex P1 P2) {x : Batch α × PP σ} (hx : x ∈ P2) :
    x.1.key.view = n.view := by
  obtain ⟨old, h, ho⟩ := i.old
  have hk : x.1.key ∈ (entries E base (ex ++ P1.map Prod.fst) P2).map Prod.fst := by
    rw [entries_keys]; exact List.mem_map.2 ⟨x, hx, rfl⟩
  obtain ⟨e, he, hek⟩ := List.mem_map.1 hk
  have := i.views e (by rw [h]; exact List.mem_append.2 (Or.inr he))
  rw [← hek]; exact this

theorem Inv.head_eq {E : Env σ α} {base : Dbs σ α} {n : Node σ α} {ex : List (Batch α)}
    {P1 P2 : List (Batch α × PP σ)} (i : Inv E base n ex P1 P2) (l : Nat) :
    (n.db.st l).head = stateAfter E.upd (base.st l).com (txnsOn (ex ++ P1.map Prod.fst ++ P2.map Prod.fst) l) := by
  rw [i.m.exact.head, List.map_append, List.append_assoc]

/-- A batch is kept. -/
theorem Inv.keep {E : Env σ α} {base : Dbs σ α} {n : Node σ α} {ex : List (Batch α)} {P1 P2 : List (Batch α × PP σ)}
    (i : Inv E base n ex P1 P2) {db : Dbs σ α} {b : Batch α} {pp : PP σ}
    (m : Match E base db ex ((P1 ++ P2).map Prod.fst ++ [b]))
    (hf : Fits E base (ex ++ (P1 ++ P2).map Prod.fst) b pp) (hc : countOf pp = b.txns.length)
    (hv : b.key.view = n.view) (hs : n.lastOrdered.seq < b.key.seq) (hn : ∀ x ∈ P2, x.1.key.seq < b.key.seq) :
    Inv E base (Pipeline.keep n db pp (n.db.st pp.lid).head) ex P1 (P2 ++ [(b, pp)]) := by
  have hfresh : ∀ e ∈ n.batches, e.1.seq < b.key.seq := by
    intro e he
    rcases i.mem_batches he with h | ⟨x, hx, hxe⟩
    · omega
    · rw [← hxe]; exact hn x hx
  have hb : (Pipeline.keep n db pp (n.db.st pp.lid).head).batches = n.batches ++ [(b.key, ⟨b.lid, b.txns.length,
      stateAfter E.upd (base.st b.lid).com (txnsOn (ex ++ P1.map Prod.fst ++ P2.map Prod.fst) b.lid)⟩)] := by
    simp only [Pipeline.keep]
    rw [set_new, hf.key, hf.lid, hc, i.head_eq]
    intro e he hek
    have := hfresh e he
    rw [hek, hf.key] at this
    omega
  refine ⟨i.alive, ?_, ?_, i.box, ?_, ?_, ?_, ?_, ?_⟩
  · have : (P1 ++ (P2 ++ [(b, pp)])).map Prod.fst = (P1 ++ P2).map Prod.fst ++ [b] := by simp
    rw [this]; exact m
  · rw [← List.append_assoc, chain_snoc]
    exact ⟨i.chain, hf⟩
  · obtain ⟨old, h, ho⟩ := i.old
    refine ⟨old, ?_, ho⟩
    rw [hb, h, entries_snoc, List.append_assoc]
  · intro e he
    rw [hb] at he
    rcases List.mem_append.1 he with he | he
    · exact i.views e he
    · simp only [List.mem_singleton] at he
      subst he; exact hv
  · rw [hb, List.map_append, List.pairwise_append]
    refine ⟨i.sorted, by simp, ?_⟩
    intro a ha c hc'
    obtain ⟨e, he, rfl⟩ := List.mem_map.1 ha
    simp only [List.map_cons, List.map_nil, List.mem_singleton] at hc'
    subst hc'
    exact hfresh e he
  · intro x hx
    simp only [Pipeline.keep]
    rcases List.mem_append.1 hx with hx | hx
    · obtain ⟨h1, h2, h3⟩ := i.new x hx
      refine ⟨h1, by omega, ?_⟩
      rw [Dict.get?_set, if_neg]
      · exact h3
      · intro hk
        have := hn x hx
        rw [← hk, hf.key] at this
        omega
    · simp only [List.mem_singleton] at hx
      subst hx
      refine ⟨hs, ?_, ?_⟩
      · rw [hf.key]; exact Nat.le_max_right ..
      · rw [Dict.get?_set, if_pos hf.key]
  · exact Nat.le_trans i.lo (Nat.le_max_left ..)

/-- Only the databases change, and they match. -/
theorem Inv.setDb {E : Env σ α} {base : Dbs σ α} {n : Node σ α} {ex : List (Batch α)} {P1 P2 : List (Batch α × PP σ)}
    (i : Inv E base n ex P1 P2) {db : Dbs σ α} (m : Match E base db ex ((P1 ++ P2).map Prod.fst)) :
    Inv E base { n with db := db } ex P1 P2 :=
  ⟨i.alive, m, i.chain, i.box, i.old, i.views, i.sorted, i.new, i.lo⟩

theorem foldl_max_le (l : List Nat) : ∀ (a x : Nat), x ∈ l ∨ x = a → x ≤ l.foldl max a := by
  induction l with
  | nil => intro a x h; rcases h with h | h; cases h; simp [h]
  | cons y l ih =>
    intro a x h
    have hm : max a y ≤ (y :: l).foldl max a := ih (max a y) (max a y) (Or.inr rfl)
    rcases h with h | h
    · rcases List.mem_cons.1 h with h | h
      · subst h
        exact Nat.le_trans (Nat.le_max_right ..) hm
      · exact ih (max a y) x (Or.inl h)
    · subst h
      exact Nat.le_trans (Nat.le_max_left ..) hm

theorem Inv.le_lastPp {E : Env σ α} {base : Dbs σ α} {n : Node σ α} {ex : List (Batch α)}
    {P1 P2 : List (Batch α × PP σ)} (i : Inv E base n ex P1 P2) {x : Batch α × PP σ} (hx : x ∈ P2) :
    x.1.key.seq ≤ lastPp n := by
  obtain ⟨_, _, h⟩ := i.new x hx
  refine foldl_max_le _ _ _ (Or.inl ?_)
  exact List.mem_map.2 ⟨_, Dict.mem_of_get? h, rfl⟩

theorem Inv.next_key {E : Env σ α} {base : Dbs σ α} {n : Node σ α} {ex : List (Batch α)}
    {P1 P2 : List (Batch α × PP σ)} (i : Inv E base n ex P1 P2) {k : Key} (h : canProcess n k = true) :
    k.view = n.view ∧ n.lastOrdered.seq < k.seq ∧ ∀ x ∈ P2, x.1.key.seq < k.seq := by
  simp only [canProcess, Bool.and_eq_true, Bool.or_eq_true, decide_eq_true_eq, Bool.not_eq_true'] at h
  obtain ⟨⟨⟨⟨h1, h2⟩, h3⟩, h4⟩, h5⟩ := h
  refine ⟨h1, h2, ?_⟩
  intro x hx
  have hl := i.le_lastPp hx
  rcases h5 with h5 | h5
  · have hne : x.1.key ≠ k := by
      intro he
      rw [Dict.has_false_iff] at h3
      rw [← he, (i.new x hx).2.2] at h3
      cases h3
    have hv := i.view_of hx
    have h0 := (i.new x hx).1
    have : x.1.key.seq ≠ k.seq := by
      intro he
      apply hne
      cases hk : x.1.key with
      | mk a b =>
        cases hk2 : k with
        | mk c d =>
          rw [hk] at hv he
          rw [hk2] at h1 he
          simp only at hv he h1
          simp [hv, he, h1]
    omega
  · omega

/-! ## Receiving and creating -/

theorem fits_of_applied [DecidableEq σ] {E : Env σ α} {base : Dbs σ α} {ex : List (Batch α)} {P1 P2 : List (Batch α × PP σ)}
    {db : Dbs σ α} {b : Batch α} {pp : PP σ} (hk : pp.key = b.key) (hl : pp.lid = b.lid)
    (m : Match E base db ex ((P1 ++ P2).map Prod.fst ++ [b])) (hc : (validReqs pp).length = b.txns.length)
    (hs : pp.stateRoot = (db.st pp.lid).head) (ht : pp.txnRoot = txnRoot E db pp.lid) :
    Fits E base (ex ++ (P1 ++ P2).map Prod.fst) b pp := by
  refine ⟨hk, hl, hc, ?_, ?_⟩
  · rw [ht, txnRoot, m.exact.ledger, m.exact.uncommitted, hl, List.append_assoc, List.append_assoc, txnsOn_append ex]
  · rw [hs, m.exact.head, hl, List.append_assoc]

/-- What a step has to give. -/
def Good (E : Env σ α) (base : Dbs σ α) (ex : List (Batch α)) (P1 P2 : List (Batch α × PP σ))
    (x : Node σ α × List (Out α)) : Prop :=
  ∃ ds P1' P2', Inv E base x.1 (ex ++ ds) P1' P2' ∧
    x.2.foldl follow (ex, (P1 ++ P2).map Prod.fst) = (ex ++ ds, (P1' ++ P2').map Prod.fst) ∧
    Out.raised ∉ x.2 ∧
    x.2.filterMap (fun o => match o with | .committed k ts => some (k, ts) | _ => none) = ds.map (fun b => (b.key, b.txns))

theorem Good.same {E : Env σ α} {base : Dbs σ α} {n : Node σ α} {ex : List (Batch α)} {P1 P2 : List (Batch α × PP σ)}
    (i : Inv E base n ex P1 P2) : Good E base ex P1 P2 (n, []) :=
  ⟨[], P1, P2, by simpa using i, by simp, by simp, by simp⟩

theorem receive_good [DecidableEq σ] {E : Env σ α} {base : Dbs σ α} {n : Node σ α} {ex : List (Batch α)}
    {P1 P2 : List (Batch α × PP σ)} (i : Inv E base n ex P1 P2) {pp : PP σ} (hr : Regular pp) :
    Good E base ex P1 P2 (receive E n pp) := by
  unfold receive
  split
  · rename_i hk
    obtain ⟨hkv, hks, hkn⟩ := i.next_key hk
    obtain ⟨h0, hf, ha, hl, d, hd, hdn, hdr⟩ := hr
    obtain ⟨hx1, hx2⟩ := applyReqs_spec E pp.time pp.lid pp.reqs n.db 0 hl
    have hm : Match E base (appliedDb E n.db pp) ex ((P1 ++ P2).map Prod.fst ++
        [⟨pp.key, pp.lid, (applyReqs E n.db pp.time pp.reqs 0).2.1,
          newAudit E (applyReqs E n.db pp.time pp.reqs 0).1 pp.key pp.lid pp.time pp.auditRoot.isSome⟩]) := by
      unfold appliedDb
      rw [ha, hx1]
      exact i.m.apply ..
    simp only [applyPp, h0, ne_eq, not_true, if_false, hf, Bool.true_eq_false, hd]
    split
    · rename_i hok
      obtain ⟨_, hok⟩ := hok
      simp only [applied, Bool.and_eq_true, decide_eq_true_eq] at hok
      obtain ⟨⟨⟨hlen, hst⟩, htx⟩, _⟩ := hok
      have hcount : (validReqs pp).length = (applyReqs E n.db pp.time pp.reqs 0).2.1.length := by
        rw [validReqs_length pp hd hdn hdr]; omega
      have hcount' : countOf pp = (applyReqs E n.db pp.time pp.reqs 0).2.1.length := by
        simp only [countOf, hd, Option.getD_some]; omega
      refine ⟨[], P1, P2 ++ [(⟨pp.key, pp.lid, (applyReqs E n.db pp.time pp.reqs 0).2.1,
          newAudit E (applyReqs E n.db pp.time pp.reqs 0).1 pp.key pp.lid pp.time pp.auditRoot.isSome⟩, pp)], ?_, ?_, ?_, ?_⟩
      · simp only [List.append_nil]
        exact i.keep hm (fits_of_applied rfl rfl hm hcount hst htx) hcount' hkv hks hkn
      · simp [follow]
      · simp
      · simp
    · have hcnt : pp.reqs.length - (applyReqs E n.db pp.time pp.reqs 0).2.2.1.length =
          (applyReqs E n.db pp.time pp.reqs 0).2.1.length := by omega
      obtain ⟨db', hrev, hm'⟩ := hm.revert
      simp only at hrev
      unfold refuse
      rw [hcnt, i.m.exact.head, hrev]
      exact ⟨[], P1, P2, by simpa using i.setDb hm', by simp [follow], by simp, by simp⟩
  · exact Good.same i

theorem create_good [DecidableEq σ] {E : Env σ α} {base : Dbs σ α} {n : Node σ α} {ex : List (Batch α)}
    {P1 P2 : List (Batch α × PP σ)} (i : Inv E base n ex P1 P2) (lid t : Nat) (q : List Req) :
    Good E base ex P1 P2 (create E n lid t q) := by
  have hl : ∀ r ∈ q.filter (fun r => r.lid = lid), r.lid = lid := by
    intro r hr
    simpa using (List.mem_filter.1 hr).2
  obtain ⟨h1, h2, h3, h4⟩ := consume_spec E t lid (q.filter (fun r => r.lid = lid)) n.db 0 hl
  have hm : Match E base (postApply E (consume E n.db t (q.filter (fun r => r.lid = lid)) 0).1 ⟨n.view, n.lastPpSeq + 1⟩ lid t true)
      ex ((P1 ++ P2).map Prod.fst ++ [⟨⟨n.view, n.lastPpSeq + 1⟩, lid, (consume E n.db t (q.filter (fun r => r.lid = lid)) 0).2.1,
        newAudit E (consume E n.db t (q.filter (fun r => r.lid = lid)) 0).1 ⟨n.view, n.lastPpSeq + 1⟩ lid t true⟩]) := by
    rw [h1]
    exact i.m.apply ..
  have hnd : (consume E n.db t (q.filter (fun r => r.lid = lid)) 0).2.2.2.Nodup :=
    h3.imp (fun h => Nat.ne_of_lt h)
  have hcount : (validReqs (makePp E n lid t q)).length = (consume E n.db t (q.filter (fun r => r.lid = lid)) 0).2.1.length := by
    rw [validReqs_length (makePp E n lid t q) (d := (consume E n.db t (q.filter (fun r => r.lid = lid)) 0).2.2.2) rfl hnd
      (fun j hj => by have := h4 j hj; simp only [makePp]; omega)]
    simp only [makePp]; omega
  have hcount' : countOf (makePp E n lid t q) = (consume E n.db t (q.filter (fun r => r.lid = lid)) 0).2.1.length := by
    simp only [countOf, makePp, Option.getD_some]; omega
  refine ⟨[], P1, P2 ++ [(⟨⟨n.view, n.lastPpSeq + 1⟩, lid, (consume E n.db t (q.filter (fun r => r.lid = lid)) 0).2.1,
        newAudit E (consume E n.db t (q.filter (fun r => r.lid = lid)) 0).1 ⟨n.view, n.lastPpSeq + 1⟩ lid t true⟩,
        makePp E n lid t q)], ?_, ?_, ?_, ?_⟩
  · simp only [List.append_nil, create]
    refine i.keep hm (fits_of_applied rfl rfl hm hcount rfl rfl) hcount' rfl ?_ ?_
    · have := i.lo; simp only; omega
    · intro x hx
      have := (i.new x hx).2.1
      simp only; omega
  · simp [create, follow]
  · simp [create]
  · simp [create]

/-! ## Ordering and executing -/

theorem order_good {E : Env σ α} {base : Dbs σ α} {n : Node σ α} {ex : List (Batch α)}
    {P1 P2 : List (Batch α × PP σ)} (i : Inv E base n ex P1 P2) (k : Key) (hs : Out.stale k ∉ (order n k).2) :
    Good E base ex P1 P2 (order n k) := by
  unfold order at hs ⊢
  cases hp : n.pps.get? k with
  | none => exact Good.same i
  | some pp =>
    simp only [hp] at hs ⊢
    split
    · rename_i hk
      rw [if_pos hk] at hs
      cases hb : n.batches.has k with
      | false => simp [hb] at hs
      | true =>
        obtain ⟨e, he⟩ := (Dict.has_iff _ _).1 hb
        have hem := Dict.mem_of_get? he
        have hx : ∃ x ∈ P2, x.1.key = k := by
          rcases i.mem_batches hem with h | h
          · simp only at h; omega
          · exact h
        -- the batch is the first one
        obtain ⟨x, hx, hxk⟩ := hx
        obtain ⟨old, hbat, hold⟩ := i.old
        cases hP : P2 with
        | nil => rw [hP] at hx; cases hx
        | cons y ys =>
          have hsorted := i.sorted
          rw [hbat, List.map_append, List.pairwise_append] at hsorted
          have hs2 := hsorted.2.1
          rw [show (fun e : Key × Entry σ => e.1.seq) = (fun k : Key => k.seq) ∘ Prod.fst from rfl, ← List.map_map,
            entries_keys, hP] at hs2
          simp only [List.map_cons, List.pairwise_cons] at hs2
          have hy : y = x := by
            rw [hP] at hx
            rcases List.mem_cons.1 hx with h | h
            · exact h.symm
            · exfalso
              have h1 := hs2.1 x.1.key.seq (by simp only [List.map_map]; exact List.mem_map.2 ⟨x, h, rfl⟩)
              have h2 := (i.new y (by rw [hP]; simp)).1
              rw [hxk] at h1
              omega
          subst hy
          have hpp : y.2 = pp := by
            have := (i.new y (by rw [hP]; simp)).2.2
            rw [hxk, hp] at this
            exact (Option.some.inj this).symm
          refine ⟨[], P1 ++ [y], ys, ?_, ?_, ?_, ?_⟩
          · simp only [List.append_nil]
            have e1 : P1 ++ [y] ++ ys = P1 ++ P2 := by rw [hP]; simp
            refine ⟨i.alive, ?_, ?_, ?_, ?_, i.views, i.sorted, ?_, ?_⟩
            · rw [e1]; exact i.m
            · rw [e1]; exact i.chain
            · simp [i.box, hpp]
            · refine ⟨old ++ [(y.1.key, ⟨y.1.lid, y.1.txns.length, stateAfter E.upd (base.st y.1.lid).com
                (txnsOn (ex ++ P1.map Prod.fst) y.1.lid)⟩)], ?_, ?_⟩
              · simp only [hbat, hP, entries]
                simp
              · intro e' he'
                simp only
                rcases List.mem_append.1 he' with h | h
                · have := hold e' h; omega
                · simp only [List.mem_singleton] at h
                  subst h
                  rw [hxk]; exact Nat.le_refl _
            · intro z hz
              obtain ⟨h1, h2, h3⟩ := i.new z (by rw [hP]; exact List.mem_cons_of_mem _ hz)
              have := hs2.1 z.1.key.seq (by simp only [List.map_map]; exact List.mem_map.2 ⟨z, hz, rfl⟩)
              rw [hxk] at this
              refine ⟨this, ?_, h3⟩
              simp only; omega
            · exact Nat.le_max_right ..
          · simp
          · simp
          · simp
    · exact Good.same i

theorem executeOne_good {E : Env σ α} {base : Dbs σ α} {n : Node σ α} {ex : List (Batch α)} {y : Batch α × PP σ}
    {P1 P2 : List (Batch α × PP σ)} (i : Inv E base n ex (y :: P1) P2) :
    (executeOne E n y.2 (P1.map Prod.snd)).2 = [.committed y.1.key y.1.txns] ∧
      Inv E base (executeOne E n y.2 (P1.map Prod.snd)).1 (ex ++ [y.1]) P1 P2 := by
  have hf : Fits E base ex y.1 y.2 := i.chain.1
  have hm : Match E base n.db ex (y.1 :: (P1 ++ P2).map Prod.fst) := i.m
  have hne : n.db.audUnc.isEmpty = false := by
    have ha := hm.audited y.1 (List.mem_cons_self ..)
    obtain ⟨a, ha⟩ := Option.isSome_iff_exists.1 ha
    rw [hm.exact.auditUnc]
    simp [ha]
  obtain ⟨db', h1, h2, h3⟩ := hm.commit hf.root hf.state
  have hb : beforeCommit E n.db y.2 = n.db := by simp [beforeCommit, hne]
  simp only [executeOne, hb, hf.lid, hf.count, h1, h3, hf.key, true_and]
  refine ⟨i.alive, h2, i.chain.2, rfl, ?_, i.views, i.sorted, i.new, i.lo⟩
  obtain ⟨old, ho⟩ := i.old
  refine ⟨old, ?_⟩
  simpa using ho

theorem execute_good {E : Env σ α} {base : Dbs σ α} {n : Node σ α} {ex : List (Batch α)}
    {P1 P2 : List (Batch α × PP σ)} (i : Inv E base n ex P1 P2) : Good E base ex P1 P2 (execute E n) := by
  unfold execute
  rw [i.box]
  cases P1 with
  | nil => exact Good.same i
  | cons y P1 =>
    obtain ⟨h1, h2⟩ := executeOne_good i
    refine ⟨[y.1], P1, P2, h2, ?_, ?_, ?_⟩ <;> simp [h1, follow]

theorem executeAll_good {E : Env σ α} {base : Dbs σ α} {P2 : List (Batch α × PP σ)} (P1 : List (Batch α × PP σ)) :
    ∀ {n : Node σ α} {ex : List (Batch α)}, Inv E base n ex P1 P2 →
      (executeAll E (P1.map Prod.snd) n).2 = P1.map (fun y => .committed y.1.key y.1.txns) ∧
        Inv E base (executeAll E (P1.map Prod.snd) n).1 (ex ++ P1.map Prod.fst) [] P2 := by
  induction P1 with
  | nil => intro n ex i; simpa [executeAll] using i
  | cons y P1 ih =>
    intro n ex i
    obtain ⟨h1, h2⟩ := executeOne_good i
    obtain ⟨h3, h4⟩ := ih h2
    simp only [List.map_cons, executeAll, h2.alive, Bool.false_eq_true, if_false, h1, h3]
    exact ⟨rfl, by simpa using h4⟩

theorem follow_commits (P1 : List (Batch α × PP σ)) : ∀ (ex rest : List (Batch α)),
    (P1.map (fun y => Out.committed y.1.key y.1.txns)).foldl follow (ex, P1.map Prod.fst ++ rest) =
      (ex ++ P1.map Prod.fst, rest) := by
  induction P1 with
  | nil => intro ex rest; simp
  | cons y P1 ih =>
    intro ex rest
    simp only [List.map_cons, List.foldl_cons, follow, List.cons_append]
    have := ih (ex ++ [y.1]) rest
    simpa using this

/-! ## Reverting -/

theorem insertDesc_front (k : Key) (l : List Key) (h : ∀ a ∈ l, keyLt k a = false) : insertDesc k l = k :: l := by
  cases l with
  | nil => rfl
  | cons a l => simp [insertDesc, h a (List.mem_cons_self ..)]

theorem sortDesc_go (ks : List Key) : ∀ acc : List Key, (∀ a ∈ acc, ∀ k ∈ ks, keyLt k a = false) →
    ks.Pairwise (fun a b => keyLt b a = false) →
    ks.foldl (fun acc k => insertDesc k acc) acc = ks.reverse ++ acc := by
  induction ks with
  | nil => intro acc _ _; rfl
  | cons k ks ih =>
    intro acc h hp
    rw [List.pairwise_cons] at hp
    simp only [List.foldl_cons]
    rw [insertDesc_front k acc (fun a ha => h a ha k (List.mem_cons_self ..)), ih]
    · simp
    · intro a ha j hj
      rcases List.mem_cons.1 ha with ha | ha
      · subst ha; exact hp.1 j hj
      · exact h a ha j (List.mem_cons_of_mem _ hj)
    · exact hp.2

theorem sortDesc_eq (ks : List Key) (v : Nat) (hv : ∀ k ∈ ks, k.view = v)
    (hp : (ks.map (fun k => k.seq)).Pairwise (· < ·)) : sortDesc ks = ks.reverse := by
  unfold sortDesc
  rw [sortDesc_go ks [] (by simp)]
  · simp
  · rw [List.pairwise_map] at hp
    refine List.Pairwise.imp_of_mem ?_ hp
    intro a b ha hb hab
    have h1 := hv a ha
    have h2 := hv b hb
    simp only [keyLt, Bool.or_eq_false_iff, decide_eq_false_iff_not, Bool.and_eq_false_iff]
    omega

theorem get?_snoc {κ β : Type} [DecidableEq κ] (d : Dict κ β) (k : κ) (v : β) (h : ∀ e ∈ d, e.1 ≠ k) :
    Dict.get? (d ++ [(k, v)]) k = some v := by
  rw [← set_new d k v h, Dict.get?_set, if_pos rfl]

theorem erase_snoc {κ β : Type} [DecidableEq κ] (d : Dict κ β) (k : κ) (v : β) (h : ∀ e ∈ d, e.1 ≠ k) :
    Dict.erase (d ++ [(k, v)]) k = d := by
  unfold Dict.erase
  rw [List.filter_append]
  simp only [List.filter_cons, List.filter_nil]
  simp only [not_true_eq_false, decide_false, Bool.false_eq_true, if_false, List.append_nil]
  exact List.filter_eq_self.2 (fun e he => by simpa using h e he)

theorem revertLoop_good {E : Env σ α} {base : Dbs σ α} {ex : List (Batch α)} {P1 : List (Batch α × PP σ)} :
    ∀ (P2 : List (Batch α × PP σ)) (rest : List Key) {n : Node σ α}, Inv E base n ex P1 P2 →
      (∀ k ∈ rest, k.seq ≤ n.lastOrdered.seq) →
      (revertLoop ((P2.map (fun x => x.1.key)).reverse ++ rest) n).2 = (P2.map (fun x => Out.reverted x.1.key)).reverse ∧
      Inv E base (revertLoop ((P2.map (fun x => x.1.key)).reverse ++ rest) n).1 ex P1 [] ∧
      (revertLoop ((P2.map (fun x => x.1.key)).reverse ++ rest) n).1.view = n.view ∧
      (revertLoop ((P2.map (fun x => x.1.key)).reverse ++ rest) n).1.lastOrdered = n.lastOrdered := by
  intro P2
  induction P2 using snoc_induction with
  | nil =>
    intro rest n i hr
    cases rest with
    | nil => simpa [revertLoop] using i
    | cons k ks =>
      have := hr k (List.mem_cons_self ..)
      simp only [List.map_nil, List.reverse_nil, List.nil_append, revertLoop]
      rw [if_neg (by omega)]
      exact ⟨rfl, i, rfl, rfl⟩
  | snoc P2 x ih =>
    intro rest n i hr
    obtain ⟨old, hb, ho⟩ := i.old
    rw [entries_snoc] at hb
    obtain ⟨hx1, hx2, hx3⟩ := i.new x (by simp)
    have hsorted := i.sorted
    rw [hb, ← List.append_assoc, List.map_append, List.pairwise_append] at hsorted
    have hlt : ∀ e ∈ old ++ entries E base (ex ++ P1.map Prod.fst) P2, e.1.seq < x.1.key.seq := by
      intro e he
      exact hsorted.2.2 _ (List.mem_map.2 ⟨e, he, rfl⟩) _ (by simp)
    have hne : ∀ e ∈ old ++ entries E base (ex ++ P1.map Prod.fst) P2, e.1 ≠ x.1.key := by
      intro e he h
      have := hlt e he
      rw [h] at this
      omega
    have hget : n.batches.get? x.1.key = some ⟨x.1.lid, x.1.txns.length,
        stateAfter E.upd (base.st x.1.lid).com (txnsOn (ex ++ P1.map Prod.fst ++ P2.map Prod.fst) x.1.lid)⟩ := by
      rw [hb, ← List.append_assoc]
      exact get?_snoc _ _ _ hne
    have hera : n.batches.erase x.1.key = old ++ entries E base (ex ++ P1.map Prod.fst) P2 := by
      rw [hb, ← List.append_assoc]
      exact erase_snoc _ _ _ hne
    have hm : Match E base n.db ex ((P1 ++ P2).map Prod.fst ++ [x.1]) := by
      have := i.m
      simpa using this
    obtain ⟨db', hrev, hm'⟩ := hm.revert
    have hpre : ex ++ (P1 ++ P2).map Prod.fst = ex ++ P1.map Prod.fst ++ P2.map Prod.fst := by simp
    rw [hpre] at hrev
    have inv' : Inv E base { n with batches := n.batches.erase x.1.key, db := db', lastPpSeq := n.lastPpSeq - 1 } ex P1 P2 := by
      refine ⟨i.alive, hm', ?_, i.box, ⟨old, hera, ho⟩, ?_, ?_, ?_, ?_⟩
      · have := i.chain
        rw [← List.append_assoc, chain_snoc] at this
        exact this.1
      · intro e he
        simp only [hera] at he
        exact i.views e (by rw [hb, ← List.append_assoc]; exact List.mem_append.2 (Or.inl he))
      · simp only [hera]
        exact hsorted.1
      · intro y hy
        obtain ⟨h1, h2, h3⟩ := i.new y (by simp [hy])
        refine ⟨h1, ?_, h3⟩
        have hk : y.1.key ∈ (entries E base (ex ++ P1.map Prod.fst) P2).map Prod.fst := by
          rw [entries_keys]; exact List.mem_map.2 ⟨y, hy, rfl⟩
        obtain ⟨e, he, hek⟩ := List.mem_map.1 hk
        have := hlt e (List.mem_append.2 (Or.inr he))
        rw [hek] at this
        simp only; omega
      · have := i.lo
        simp only; omega
    obtain ⟨g1, g2, g3, g4⟩ := ih rest inv' hr
    simp only [List.map_append, List.map_cons, List.map_nil, List.reverse_append, List.reverse_cons, List.reverse_nil,
      List.nil_append, List.cons_append, revertLoop, hx1, if_true, hget, hrev]
    exact ⟨by rw [g1], g2, g3, g4⟩

theorem revertUnordered_good {E : Env σ α} {base : Dbs σ α} {n : Node σ α} {ex : List (Batch α)}
    {P1 P2 : List (Batch α × PP σ)} (i : Inv E base n ex P1 P2) :
    (revertUnordered n).2 = (P2.map (fun x => Out.reverted x.1.key)).reverse ∧
      Inv E base (revertUnordered n).1 ex P1 [] ∧ (revertUnordered n).1.view = n.view ∧
      (revertUnordered n).1.lastOrdered = n.lastOrdered := by
  unfold revertUnordered
  have hs : sortDesc n.batches.keys = n.batches.keys.reverse := by
    refine sortDesc_eq _ n.view ?_ ?_
    · intro k hk
      obtain ⟨e, he, rfl⟩ := List.mem_map.1 hk
      exact i.views e he
    · have := i.sorted
      simpa [Dict.keys, List.map_map, Function.comp_def] using this
  obtain ⟨old, hb, ho⟩ := i.old
  have hk : n.batches.keys.reverse = (P2.map (fun x => x.1.key)).reverse ++ (old.map Prod.fst).reverse := by
    rw [hb]
    simp only [Dict.keys, List.map_append, List.reverse_append, entries_keys]
  rw [hs, hk]
  refine revertLoop_good P2 _ i ?_
  intro k hk
  simp only [List.mem_reverse, List.mem_map] at hk
  obtain ⟨e, he, rfl⟩ := hk
  exact ho e he

theorem follow_reverts (P2 : List (Batch α × PP σ)) : ∀ (ex pre : List (Batch α)),
    ((P2.map (fun x => Out.reverted x.1.key)).reverse).foldl follow (ex, pre ++ P2.map Prod.fst) = (ex, pre) := by
  induction P2 using snoc_induction with
  | nil => intro ex pre; simp
  | snoc P2 x ih =>
    intro ex pre
    simp only [List.map_append, List.map_cons, List.map_nil, List.reverse_append, List.reverse_cons, List.reverse_nil,
      List.nil_append, List.singleton_append, List.foldl_cons, follow]
    have e : (pre ++ (P2.map Prod.fst ++ [x.1])).dropLast = pre ++ P2.map Prod.fst := by
      rw [← List.append_assoc]; simp
    rw [e]
    exact ih ex pre

theorem viewChange_good {E : Env σ α} {base : Dbs σ α} {n : Node σ α} {ex : List (Batch α)}
    {P1 P2 : List (Batch α × PP σ)} (i : Inv E base n ex P1 P2) :
    Inv E base (viewChange n).1 ex P1 [] ∧ (viewChange n).2 = (P2.map (fun x => Out.reverted x.1.key)).reverse := by
  obtain ⟨h1, h2, h3, h4⟩ := revertUnordered_good i
  unfold viewChange
  simp only [h2.alive, Bool.false_eq_true, if_false, h1, and_true]
  exact ⟨rfl, h2.m, h2.chain, h2.box, ⟨[], rfl, by simp⟩, by simp, by simp, by simp, h2.lo⟩

theorem catchup_good {E : Env σ α} {base : Dbs σ α} {n : Node σ α} {ex : List (Batch α)}
    {P1 P2 : List (Batch α × PP σ)} (i : Inv E base n ex P1 P2) :
    Inv E base (catchup E n).1 (ex ++ P1.map Prod.fst) [] [] ∧
      (catchup E n).2 = P1.map (fun y => .committed y.1.key y.1.txns) ++ (P2.map (fun x => Out.reverted x.1.key)).reverse := by
  obtain ⟨h1, h2⟩ := executeAll_good P1 i
  obtain ⟨h3, h4, _, _⟩ := revertUnordered_good h2
  unfold catchup
  rw [i.box]
  simp only [h2.alive, Bool.false_eq_true, if_false, h1, h3, and_true]
  exact h4

theorem filter_map_committed (P1 : List (Batch α × PP σ)) :
    (P1.map (fun y => (Out.committed y.1.key y.1.txns : Out α))).filterMap
      (fun o => match o with | .committed k ts => some (k, ts) | _ => none) =
    (P1.map Prod.fst).map (fun b => (b.key, b.txns)) := by
  induction P1 with
  | nil => rfl
  | cons y P1 ih => simpa using ih

theorem filter_map_reverted (P2 : List (Batch α × PP σ)) :
    ((P2.map (fun x => (Out.reverted x.1.key : Out α))).reverse).filterMap
      (fun o => match o with | .committed k ts => some (k, ts) | _ => none) = [] := by
  rw [List.filterMap_eq_nil_iff]
  intro o ho
  simp only [List.mem_reverse, List.mem_map] at ho
  obtain ⟨x, _, rfl⟩ := ho
  rfl

theorem gc_good {E : Env σ α} {base : Dbs σ α} {n : Node σ α} {ex : List (Batch α)}
    {P1 P2 : List (Batch α × PP σ)} (i : Inv E base n ex P1 P2) (till : Nat) : Good E base ex P1 P2 (gc n till) := by
  unfold gc
  split
  · rename_i ht
    refine ⟨[], P1, P2, ?_, by simp, by simp, by simp⟩
    simp only [List.append_nil]
    obtain ⟨old, hb, ho⟩ := i.old
    refine ⟨i.alive, i.m, i.chain, i.box, ⟨old.filter (fun e => till < e.1.seq), ?_, ?_⟩, ?_, ?_, ?_, i.lo⟩
    · simp only [hb, List.filter_append]
      congr 1
      refine List.filter_eq_self.2 ?_
      intro e he
      have hk : e.1 ∈ (entries E base (ex ++ P1.map Prod.fst) P2).map Prod.fst := List.mem_map.2 ⟨e, he, rfl⟩
      rw [entries_keys] at hk
      obtain ⟨x, hx, hxe⟩ := List.mem_map.1 hk
      have := (i.new x hx).1
      rw [← hxe]
      simp only [decide_eq_true_eq]; omega
    · intro e he
      exact ho e (List.mem_filter.1 he).1
    · intro e he
      exact i.views e (List.mem_filter.1 he).1
    · exact i.sorted.sublist (List.Sublist.map _ List.filter_sublist)
    · intro x hx
      obtain ⟨h1, h2, h3⟩ := i.new x hx
      refine ⟨h1, h2, ?_⟩
      have := Dict.get?_filter n.pps (fun k => decide (till < k.seq)) x.1.key
      simp only at this ⊢
      rw [this, if_pos (by simp only [decide_eq_true_eq]; omega)]
      exact h3
  · exact Good.same i

theorem step_good [DecidableEq σ] {E : Env σ α} {base : Dbs σ α} {n : Node σ α} {ex : List (Batch α)}
    {P1 P2 : List (Batch α × PP σ)} (i : Inv E base n ex P1 P2) (e : Event σ)
    (hr : ∀ pp, e = .preprepare pp → Regular pp) (hs : ∀ k, Out.stale k ∉ (step E n e).2) :
    Good E base ex P1 P2 (step E n e) := by
  have hst : step E n e = stepLive E n e := by simp [step, i.alive]
  rw [hst] at hs ⊢
  cases e with
  | preprepare pp => exact receive_good i (hr pp rfl)
  | create lid t q => exact create_good i lid t q
  | order k => exact order_good i k (hs k)
  | execute => exact execute_good i
  | viewChange =>
    obtain ⟨h1, h2⟩ := viewChange_good i
    refine ⟨[], P1, [], by simpa [stepLive] using h1, ?_, ?_, ?_⟩
    · simp only [stepLive, h2, List.map_append, List.append_nil]
      exact follow_reverts P2 ex (P1.map Prod.fst)
    · simp [stepLive, h2]
    · simp only [stepLive, h2, filter_map_reverted, List.map_nil]
  | catchup =>
    obtain ⟨h1, h2⟩ := catchup_good i
    refine ⟨P1.map Prod.fst, [], [], h1, ?_, ?_, ?_⟩
    · simp only [stepLive, h2, List.foldl_append, List.map_append, follow_commits]
      exact follow_reverts P2 (ex ++ P1.map Prod.fst) []
    · simp [stepLive, h2]
    · simp only [stepLive, h2, List.filterMap_append, filter_map_committed, filter_map_reverted, List.append_nil]
  | gc till => exact gc_good i till

/-- A history. -/
theorem run_good [DecidableEq σ] (E : Env σ α) {base : Dbs σ α} (hb : Clean base) (evs : List (Event σ))
    (hr : RegularHistory evs) (hs : ∀ k, Out.stale k ∉ (run E (start base) evs).2) :
    ∃ P1 P2, Inv E base (run E (start base) evs).1 (done (run E (start base) evs).2) P1 P2 ∧
      pending (run E (start base) evs).2 = (P1 ++ P2).map Prod.fst ∧
      Out.raised ∉ (run E (start base) evs).2 ∧
      (run E (start base) evs).2.filterMap (fun o => match o with | .committed k ts => some (k, ts) | _ => none) =
        (done (run E (start base) evs).2).map (fun b => (b.key, b.txns)) := by
  induction evs using snoc_induction with
  | nil => exact ⟨[], [], Inv.start E hb, rfl, by simp [run], rfl⟩
  | snoc evs e ih =>
    have hrun : run E (start base) (evs ++ [e]) = ((step E (run E (start base) evs).1 e).1,
        (run E (start base) evs).2 ++ (step E (run E (start base) evs).1 e).2) := by
      simp [run, List.foldl_append]
    have hs1 : ∀ k, Out.stale k ∉ (run E (start base) evs).2 := by
      intro k hk
      exact hs k (by rw [hrun]; exact List.mem_append.2 (Or.inl hk))
    have hs2 : ∀ k, Out.stale k ∉ (step E (run E (start base) evs).1 e).2 := by
      intro k hk
      exact hs k (by rw [hrun]; exact List.mem_append.2 (Or.inr hk))
    obtain ⟨P1, P2, h1, h2, h3, h4⟩ := ih (fun pp hp => hr pp (List.mem_append.2 (Or.inl hp))) hs1
    obtain ⟨ds, P1', P2', g1, g2, g3, g4⟩ :=
      step_good h1 e (fun pp he => hr pp (by rw [he]; simp)) hs2
    have hfold : ((run E (start base) (evs ++ [e])).2).foldl follow ([], []) =
        (done (run E (start base) evs).2 ++ ds, (P1' ++ P2').map Prod.fst) := by
      rw [hrun, List.foldl_append]
      rw [← g2]
      congr 1
      rw [← h2]
      rfl
    have hdone : done (run E (start base) (evs ++ [e])).2 = done (run E (start base) evs).2 ++ ds := by
      unfold done; rw [hfold]; rfl
    have hpend : pending (run E (start base) (evs ++ [e])).2 = (P1' ++ P2').map Prod.fst := by
      unfold pending; rw [hfold]
    refine ⟨P1', P2', ?_, hpend, ?_, ?_⟩
    · rw [hdone, hrun]; exact g1
    · rw [hrun]
      intro h
      rcases List.mem_append.1 h with h | h
      · exact h3 h
      · exact g3 h
    · rw [hdone, hrun, List.filterMap_append, h4, g4, List.map_append]

end Verif.Pipeline
