import Verif.Spec.Crash
import Verif.Proofs.Count
/-!
# Writes that may be cut short (C80)
-/
namespace Verif.Props
open Verif Verif.Crash Verif.Spec.Crash

variable {σ : Type}

theorem cr_writes_append (d : Disk σ) (a b : List (Write σ)) : writes d (a ++ b) = writes (writes d a) b := by
  simp [writes]

theorem cr_writes_cons (d : Disk σ) (w : Write σ) (b : List (Write σ)) : writes d (w :: b) = writes (write d w) b := rfl

/-- The property holds between all the groups of writes. -/
def CrAlw (A : Disk σ → Prop) : Disk σ → List (List (Write σ)) → Prop
  | d, [] => A d
  | d, u :: us => A d ∧ CrAlw A (writes d u) us

theorem CrAlw.first {A : Disk σ → Prop} {d : Disk σ} {us : List (List (Write σ))} (h : CrAlw A d us) : A d := by
  cases us with
  | nil => exact h
  | cons u us => exact h.1

theorem CrAlw.append {A : Disk σ → Prop} {vs : List (List (Write σ))} : ∀ {us : List (List (Write σ))} {d : Disk σ},
    CrAlw A d us → CrAlw A (writes d us.flatten) vs → CrAlw A d (us ++ vs)
  | [], _, _, h => h
  | u :: us, d, h1, h2 => by
    refine ⟨h1.1, CrAlw.append h1.2 ?_⟩
    rw [List.flatten_cons, cr_writes_append] at h2
    exact h2

theorem CrAlw.take {A : Disk σ → Prop} : ∀ {us : List (List (Write σ))} {d : Disk σ}, CrAlw A d us → ∀ i,
    A (writes d (us.take i).flatten)
  | us, d, h, 0 => by simpa [writes] using h.first
  | [], d, h, i + 1 => h
  | u :: us, d, h, i + 1 => by
    rw [List.take_succ_cons, List.flatten_cons, cr_writes_append]
    exact CrAlw.take h.2 i

theorem CrAlw.last {A : Disk σ → Prop} {us : List (List (Write σ))} {d : Disk σ} (h : CrAlw A d us) : A (writes d us.flatten) := by
  have := h.take us.length
  rwa [List.take_length] at this

theorem CrAlw.and {A B : Disk σ → Prop} : ∀ {us : List (List (Write σ))} {d : Disk σ}, CrAlw A d us → CrAlw B d us →
    CrAlw (fun d => A d ∧ B d) d us
  | [], _, h1, h2 => ⟨h1, h2⟩
  | _ :: _, _, h1, h2 => ⟨⟨h1.1, h2.1⟩, CrAlw.and h1.2 h2.2⟩

theorem CrAlw.mono {A B : Disk σ → Prop} (h : ∀ d, A d → B d) : ∀ {us : List (List (Write σ))} {d : Disk σ}, CrAlw A d us →
    CrAlw B d us
  | [], _, h1 => h _ h1
  | _ :: _, _, h1 => ⟨h _ h1.1, CrAlw.mono h h1.2⟩

/-- Crashes between single writes, or between groups. -/
def crG (g : Option Grain) (steps : Steps σ) : List (List (Write σ)) :=
  match g with
  | none => steps.flatten.flatten.map fun w => [w]
  | some g => g.groups steps

theorem cr_singles (ws : List (Write σ)) : (ws.map fun w => [w]).flatten = ws := by
  induction ws with
  | nil => rfl
  | cons w ws ih => simp [ih]

theorem crG_flatten (g : Option Grain) (steps : Steps σ) : (crG g steps).flatten = steps.flatten.flatten := by
  match g with
  | none => exact cr_singles _
  | some .ledgerState => rfl
  | some .whole => exact List.flatten_flatten.symm

theorem crG_append (g : Option Grain) (a b : Steps σ) : crG g (a ++ b) = crG g a ++ crG g b := by
  match g with
  | none => simp [crG]
  | some .ledgerState => simp [crG, Grain.groups]
  | some .whole => simp [crG, Grain.groups]

theorem crG_nil (g : Option Grain) : crG (σ := σ) g [] = [] := by
  match g with
  | none => rfl
  | some .ledgerState => rfl
  | some .whole => rfl

theorem crG_cons (g : Option Grain) (a : List (List (Write σ))) (b : Steps σ) : crG g (a :: b) = crG g [a] ++ crG g b :=
  crG_append g [a] b

theorem crG_audit (g : Option Grain) (r : Nat) :
    crG (σ := σ) g (List.replicate r [[.audit]]) = List.replicate r [.audit] := by
  induction r with
  | zero => exact crG_nil g
  | succ r ih =>
    rw [List.replicate_succ, crG_cons, ih, List.replicate_succ]
    match g with
    | none => rfl
    | some .ledgerState => rfl
    | some .whole => rfl

theorem CrAlw.skip {A : Disk σ → Prop} {vs : List (List (Write σ))} : ∀ {u : List (Write σ)} {d : Disk σ},
    CrAlw A d (u.map (fun w => [w]) ++ vs) → CrAlw A (writes d u) vs
  | [], _, h => h
  | _ :: u, _, h => CrAlw.skip (u := u) h.2

/-- From single writes to groups. -/
theorem CrAlw.coarsen {A : Disk σ → Prop} : ∀ {us : List (List (Write σ))} {d : Disk σ}, CrAlw A d (us.flatten.map fun w => [w]) →
    CrAlw A d us
  | [], _, h => h
  | u :: us, d, h => by
    refine ⟨h.first, ?_⟩
    refine CrAlw.coarsen ?_
    rw [List.flatten_cons, List.map_append] at h
    exact CrAlw.skip h

theorem CrAlw.group {A : Disk σ → Prop} {steps : Steps σ} {d : Disk σ} (h : CrAlw A d (crG none steps)) (g : Option Grain) :
    CrAlw A d (crG g steps) := by
  apply CrAlw.coarsen
  rw [crG_flatten]
  exact h

/-! ## What the writes do -/

theorem cr_appends (l : Nat) (ts : List Txn) : ∀ (d : Disk σ), writes d (ts.map (.append l)) =
    { d with ledger := fun k => if k = l then d.ledger k ++ ts else d.ledger k } := by
  induction ts with
  | nil =>
    intro d
    show d = _
    have : (fun k => if k = l then d.ledger k ++ [] else d.ledger k) = d.ledger := by
      funext k; by_cases h : k = l <;> simp [h]
    rw [this]
  | cons t ts ih =>
    intro d
    rw [List.map_cons, cr_writes_cons, ih]
    show Disk.mk _ _ _ _ _ _ = Disk.mk _ _ _ _ _ _
    congr 1
    funext k
    simp only [write]
    by_cases h : k = l <;> simp [h]

/-- The index of requests after new transactions. -/
def crSeq (l n : Nat) (ts : List Txn) (m : Dict Nat (Nat × Nat)) : Dict Nat (Nat × Nat) :=
  if ts.all (fun t => t.id.isSome) then
    (ts.zipIdx.filterMap fun e => e.1.id.map fun i => (i.1, (l, n + e.2))).foldl (fun m e => m.set e.1 e.2) m
  else m

/-- The digests after new transactions. -/
def crFull (ts : List Txn) (m : List Nat) : List Nat :=
  if ts.all (fun t => t.id.isSome) then m ++ ts.filterMap fun t => t.id.map (·.2) else m

theorem cr_seqWrites (d : Disk σ) (l n : Nat) (ts : List Txn) : writes d (seqWrites l n ts).flatten =
    { d with seq := crSeq l n ts d.seq, full := crFull ts d.full } := by
  unfold seqWrites crSeq crFull
  split <;> rfl

/-- The times after a new root. -/
def crTs (P : Pool) (l time : Nat) (s : σ) (m : Dict (Nat × Nat) σ) : Dict (Nat × Nat) σ :=
  if l ∈ P.tsLids then m.set (l, time) s else m

theorem cr_tsWrites (d : Disk σ) (P : Pool) (l time : Nat) (s : σ) : writes d (tsWrites P l time s).flatten =
    { d with ts := crTs P l time s d.ts } := by
  unfold tsWrites crTs
  split <;> rfl

/-- The disk after a transaction of a catchup. -/
def crAdded (E : Env σ) (P : Pool) (l : Nat) (d : Disk σ) (t : Txn) : Disk σ where
  ledger := fun k => if k = l then d.ledger k ++ [t] else d.ledger k
  state := fun k => if k = l then E.upd (d.state l) t else d.state k
  audit := d.audit
  ts := match t.time with
    | none => d.ts
    | some time => crTs P l time (E.upd (d.state l) t) d.ts
  seq := crSeq l ((d.ledger l).length + 1) [t] d.seq
  full := crFull [t] d.full

theorem cr_addTxn (E : Env σ) (P : Pool) (l : Nat) (d : Disk σ) (t : Txn) :
    writes d (addTxn E P l (d.state l) (d.ledger l).length t).flatten = crAdded E P l d t := by
  unfold addTxn
  rw [List.flatten_append, List.flatten_append, cr_writes_append, cr_writes_append, cr_seqWrites]
  cases ht : t.time with
  | none => simp [crAdded, ht, writes, write]
  | some time =>
    simp only
    rw [cr_tsWrites]
    simp [crAdded, ht, writes, write]

theorem cr_addAll_eff (E : Env σ) (P : Pool) (l : Nat) : ∀ (ts : List Txn) (d : Disk σ),
    let d' := writes d (addAll E P l (d.state l) (d.ledger l).length ts).flatten.flatten
    d'.ledger l = d.ledger l ++ ts ∧ d'.audit = d.audit ∧
      ∀ k, k ≠ l → d'.ledger k = d.ledger k ∧ d'.state k = d.state k := by
  intro ts
  induction ts with
  | nil => intro d; exact ⟨(List.append_nil _).symm, rfl, fun k _ => ⟨rfl, rfl⟩⟩
  | cons t ts ih =>
    intro d
    simp only [addAll, List.flatten_cons, List.flatten_append]
    rw [cr_writes_append, cr_addTxn]
    have h1 : (crAdded E P l d t).ledger l = d.ledger l ++ [t] := by simp [crAdded]
    have h2 : (crAdded E P l d t).state l = E.upd (d.state l) t := by simp [crAdded]
    have h := ih (crAdded E P l d t)
    simp only [h1, h2, List.length_append, List.length_singleton] at h
    refine ⟨?_, h.2.1.trans rfl, fun k hk => ?_⟩
    · rw [h.1]; simp
    · obtain ⟨h3, h4⟩ := h.2.2 k hk
      rw [h3, h4]
      simp [crAdded, hk]

theorem cr_addAll_alw {I : Disk σ → Prop} {g : Option Grain} {E : Env σ} {P : Pool} {l : Nat} {L : List Txn}
    (hadd : ∀ d t, I d → d.ledger l ++ [t] <+: L → CrAlw I d (crG g [addTxn E P l (d.state l) (d.ledger l).length t])) :
    ∀ (ts : List Txn) (d : Disk σ), I d → d.ledger l ++ ts <+: L →
      CrAlw I d (crG g (addAll E P l (d.state l) (d.ledger l).length ts)) := by
  intro ts
  induction ts with
  | nil => intro d hI _; rw [addAll, crG_nil]; exact hI
  | cons t ts ih =>
    intro d hI hp
    have hp1 : d.ledger l ++ [t] <+: L := by
      refine List.IsPrefix.trans ⟨ts, ?_⟩ hp
      simp
    have h1 := hadd d t hI hp1
    rw [addAll, crG_cons]
    refine h1.append ?_
    have hl := h1.last
    have he : writes d (crG g [addTxn E P l (d.state l) (d.ledger l).length t]).flatten = crAdded E P l d t := by
      rw [crG_flatten, List.flatten_singleton, cr_addTxn]
    rw [he] at hl ⊢
    have h3 : (crAdded E P l d t).ledger l = d.ledger l ++ [t] := by simp [crAdded]
    have h4 : (crAdded E P l d t).state l = E.upd (d.state l) t := by simp [crAdded]
    have h5 := ih (crAdded E P l d t) hl (by rw [h3]; simpa using hp)
    rw [h3, h4] at h5
    simpa using h5

/-- The transactions of several ledgers. -/
theorem cr_lids_eff (E : Env σ) (P : Pool) (d : Disk σ) (T : Nat → List Txn) : ∀ (ls : List Nat) (cur : Disk σ), ls.Nodup →
    (∀ l ∈ ls, cur.ledger l = d.ledger l ∧ cur.state l = d.state l) →
    let d' := writes cur (ls.flatMap fun l => addAll E P l (d.state l) (d.ledger l).length (T l)).flatten.flatten
    d'.audit = cur.audit ∧ (∀ l ∈ ls, d'.ledger l = d.ledger l ++ T l) ∧ ∀ k, k ∉ ls → d'.ledger k = cur.ledger k := by
  intro ls
  induction ls with
  | nil => intro cur _ _; exact ⟨rfl, fun _ h => (by cases h), fun _ _ => rfl⟩
  | cons l ls ih =>
    intro cur hn hc
    obtain ⟨hl1, hl2⟩ := hc l (List.mem_cons_self ..)
    have hnd := List.nodup_cons.1 hn
    simp only [List.flatMap_cons, List.flatten_append]
    rw [cr_writes_append]
    have he := cr_addAll_eff E P l (T l) cur
    rw [hl1, hl2] at he
    simp only at he
    have h := ih (writes cur (addAll E P l (d.state l) (d.ledger l).length (T l)).flatten.flatten) hnd.2 (fun k hk => by
      have hkl : k ≠ l := fun h => hnd.1 (h ▸ hk)
      obtain ⟨h1, h2⟩ := he.2.2 k hkl
      obtain ⟨h3, h4⟩ := hc k (List.mem_cons_of_mem _ hk)
      exact ⟨h1.trans h3, h2.trans h4⟩)
    simp only at h
    refine ⟨h.1.trans he.2.1, fun k hk => ?_, fun k hk => ?_⟩
    · rcases List.mem_cons.1 hk with rfl | hk
      · rw [h.2.2 k hnd.1]; exact he.1
      · exact h.2.1 k hk
    · rw [h.2.2 k (fun h' => hk (List.mem_cons_of_mem _ h'))]
      exact (he.2.2 k (fun h' => hk (h' ▸ List.mem_cons_self ..))).1

theorem cr_lids_alw {I : Disk σ → Prop} {g : Option Grain} {E : Env σ} {P : Pool} {d : Disk σ} {T : Nat → List Txn}
    {L : Nat → List Txn} : ∀ (ls : List Nat) (cur : Disk σ), ls.Nodup →
    (∀ l ∈ ls, ∀ d t, I d → d.ledger l ++ [t] <+: L l → CrAlw I d (crG g [addTxn E P l (d.state l) (d.ledger l).length t])) →
    (∀ l ∈ ls, cur.ledger l = d.ledger l ∧ cur.state l = d.state l) → (∀ l ∈ ls, d.ledger l ++ T l <+: L l) → I cur →
    CrAlw I cur (crG g (ls.flatMap fun l => addAll E P l (d.state l) (d.ledger l).length (T l))) := by
  intro ls
  induction ls with
  | nil => intro cur _ _ _ _ hI; rw [List.flatMap_nil, crG_nil]; exact hI
  | cons l ls ih =>
    intro cur hn hadd hc hp hI
    obtain ⟨hl1, hl2⟩ := hc l (List.mem_cons_self ..)
    have hnd := List.nodup_cons.1 hn
    rw [List.flatMap_cons, crG_append]
    have h1 := cr_addAll_alw (E := E) (P := P) (g := g) (L := L l) (hadd l (List.mem_cons_self ..)) (T l) cur hI
      (by rw [hl1]; exact hp l (List.mem_cons_self ..))
    rw [hl1, hl2] at h1
    refine h1.append ?_
    have he := cr_addAll_eff E P l (T l) cur
    rw [hl1, hl2] at he
    simp only at he
    refine ih _ hnd.2 (fun k hk => hadd k (List.mem_cons_of_mem _ hk)) (fun k hk => ?_)
      (fun k hk => hp k (List.mem_cons_of_mem _ hk)) h1.last
    rw [crG_flatten]
    have hkl : k ≠ l := fun h => hnd.1 (h ▸ hk)
    obtain ⟨h1, h2⟩ := he.2.2 k hkl
    obtain ⟨h3, h4⟩ := hc k (List.mem_cons_of_mem _ hk)
    exact ⟨h1.trans h3, h2.trans h4⟩

theorem cr_audits (r : Nat) : ∀ (d : Disk σ), writes d (List.replicate r [Write.audit]).flatten = { d with audit := d.audit + r } := by
  induction r with
  | zero => intro d; rfl
  | succ r ih =>
    intro d
    rw [List.replicate_succ, List.flatten_cons, cr_writes_append, ih]
    show Disk.mk _ _ _ _ _ _ = Disk.mk _ _ _ _ _ _
    congr 1
    show d.audit + 1 + r = d.audit + (r + 1)
    omega

theorem cr_audits_alw {I : Disk σ → Prop} {N : Nat} (haud : ∀ d, I d → d.audit < N → I (write d .audit)) (r : Nat) :
    ∀ (d : Disk σ), I d → d.audit + r ≤ N → CrAlw I d (List.replicate r [Write.audit]) := by
  induction r with
  | zero => intro d hI _; exact hI
  | succ r ih =>
    intro d hI hle
    refine ⟨hI, ih _ (haud d hI (by omega)) ?_⟩
    show d.audit + 1 + r ≤ N
    omega

/-! ## The pool -/

theorem cr_pool_le (P : Pool) {m k : Nat} (h : m ≤ k) (l : Nat) : P.ledger m l <+: P.ledger k l := by
  unfold Pool.ledger
  have : P.batches.take m <+: P.batches.take k := by
    refine ⟨(P.batches.take k).drop m, ?_⟩
    have := List.take_append_drop m (P.batches.take k)
    rwa [List.take_take, Nat.min_eq_left h] at this
  obtain ⟨r, hr⟩ := this
  rw [← hr, List.filter_append, List.flatMap_append, ← List.append_assoc]
  exact List.prefix_append _ _

theorem cr_pool_succ (P : Pool) {k : Nat} {b : Batch} (h : P.batches[k]? = some b) (l : Nat) :
    P.ledger (k + 1) l = P.ledger k l ++ if b.lid = l then b.txns else [] := by
  unfold Pool.ledger
  rw [List.take_add_one, h, List.filter_append, List.flatMap_append, List.append_assoc]
  congr 2
  by_cases hb : b.lid = l <;> simp [hb]

/-- The ledgers are those of the pool as far as they go. -/
def CrLed (P : Pool) (d : Disk σ) : Prop :=
  d.audit ≤ P.batches.length ∧ ∀ l ∈ P.lids, d.ledger l <+: P.ledger P.batches.length l

/-- What a catchup to `M` gives to a ledger. -/
theorem cr_missing {P : Pool} {L : List Txn} {M l : Nat} (h : L <+: P.ledger P.batches.length l) (hM : M ≤ P.batches.length) :
    (L ++ (P.ledger M l).drop L.length <+: P.ledger P.batches.length l) ∧
    (P.ledger M l <+: L ++ (P.ledger M l).drop L.length) ∧
    (L <+: P.ledger M l → L ++ (P.ledger M l).drop L.length = P.ledger M l) := by
  have hk := cr_pool_le P hM l
  have heq : L <+: P.ledger M l → L ++ (P.ledger M l).drop L.length = P.ledger M l := by
    rintro ⟨r, hr⟩
    rw [← hr]; simp
  rcases List.prefix_or_prefix_of_prefix h hk with h1 | h1
  · rw [heq h1]
    exact ⟨hk, List.prefix_refl _, fun _ => rfl⟩
  · refine ⟨?_, ?_, heq⟩
    · rw [List.drop_eq_nil_of_le h1.length_le, List.append_nil]; exact h
    · rw [List.drop_eq_nil_of_le h1.length_le, List.append_nil]; exact h1

theorem cr_catchup_eff (E : Env σ) {P : Pool} (hn : P.lids.Nodup) (d : Disk σ) (m : Nat) :
    let d' := writes d (catchupSteps E P d m).flatten.flatten
    d'.audit = target d m ∧
      ∀ l ∈ P.lids, d'.ledger l = d.ledger l ++ (P.ledger (target d m) l).drop (d.ledger l).length := by
  unfold catchupSteps
  simp only [List.flatten_append]
  rw [cr_writes_append]
  have ha : ((List.replicate (target d m - d.audit) [[Write.audit (σ := σ)]]).flatten.flatten) =
      (List.replicate (target d m - d.audit) [Write.audit]).flatten := by
    have := crG_flatten (σ := σ) (some .whole) (List.replicate (target d m - d.audit) [[Write.audit]])
    rw [crG_audit] at this
    exact this.symm
  rw [ha, cr_audits]
  have h := cr_lids_eff E P d (fun l => (P.ledger (target d m) l).drop (d.ledger l).length) P.lids
    { d with audit := d.audit + (target d m - d.audit) } hn (fun l _ => ⟨rfl, rfl⟩)
  simp only at h
  refine ⟨h.1.trans ?_, h.2.1⟩
  show d.audit + (target d m - d.audit) = target d m
  unfold target; omega

theorem cr_catchup_alw {I : Disk σ → Prop} {g : Option Grain} {E : Env σ} {P : Pool} (hn : P.lids.Nodup)
    (hadd : ∀ l ∈ P.lids, ∀ d t, I d → d.ledger l ++ [t] <+: P.ledger P.batches.length l →
      CrAlw I d (crG g [addTxn E P l (d.state l) (d.ledger l).length t]))
    (haud : ∀ d, I d → d.audit < P.batches.length → I (write d .audit)) {d : Disk σ} (hI : I d) (hL : CrLed P d) {m : Nat}
    (hm : m ≤ P.batches.length) : CrAlw I d (crG g (catchupSteps E P d m)) := by
  have ht : target d m ≤ P.batches.length := by
    have := hL.1
    unfold target; omega
  unfold catchupSteps
  rw [crG_append, crG_audit]
  have h1 := cr_audits_alw haud (target d m - d.audit) d hI (by unfold target at ht ⊢; omega)
  refine h1.append ?_
  have hl := h1.last
  rw [cr_audits] at hl ⊢
  exact cr_lids_alw P.lids _ hn hadd (fun l _ => ⟨rfl, rfl⟩) (fun l hl => (cr_missing (hL.2 l hl) ht).1) hl

/-! ## Starting -/

theorem crG_append1 (g : Option Grain) (l : Nat) (ts : List Txn) :
    crG (σ := σ) g (ts.map fun t => [[.append l t]]) = ts.map fun t => [.append l t] := by
  induction ts with
  | nil => exact crG_nil g
  | cons t ts ih =>
    rw [List.map_cons, crG_cons, ih, List.map_cons]
    match g with
    | none => rfl
    | some .ledgerState => rfl
    | some .whole => rfl

theorem cr_append1 (l : Nat) (ts : List Txn) (d : Disk σ) : writes d (ts.map fun t => [Write.append l t]).flatten =
    { d with ledger := fun k => if k = l then d.ledger k ++ ts else d.ledger k } := by
  rw [← cr_appends]
  congr 1
  induction ts with
  | nil => rfl
  | cons t ts ih => simp [ih]

theorem cr_append1_alw {I : Disk σ → Prop} {l : Nat} {L : List Txn}
    (hgen : ∀ d t, I d → d.ledger l ++ [t] <+: L → I (write d (.append l t))) : ∀ (ts : List Txn) (d : Disk σ), I d →
    d.ledger l ++ ts <+: L → CrAlw I d (ts.map fun t => [Write.append l t]) := by
  intro ts
  induction ts with
  | nil => intro d hI _; exact hI
  | cons t ts ih =>
    intro d hI hp
    refine ⟨hI, ih _ (hgen d t hI (List.IsPrefix.trans ⟨ts, by simp⟩ hp)) ?_⟩
    have : (writes d [Write.append l t]).ledger l = d.ledger l ++ [t] := by simp [writes, write]
    rw [this]
    simpa using hp

/-- The ledgers after the genesis transactions. -/
theorem cr_genesis_eff (P : Pool) (d : Disk σ) : ∀ (ls : List Nat) (cur : Disk σ), ls.Nodup →
    (∀ l ∈ ls, cur.ledger l = d.ledger l) →
    ∃ L : Nat → List Txn,
      writes cur (crG none (ls.flatMap fun l => if (d.ledger l).isEmpty then (P.genesis l).map fun t => [[.append l t]] else [])).flatten =
        { cur with ledger := L } ∧
      (∀ l ∈ ls, L l = if (d.ledger l).isEmpty then P.genesis l else d.ledger l) ∧ ∀ k, k ∉ ls → L k = cur.ledger k := by
  intro ls
  induction ls with
  | nil => intro cur _ _; exact ⟨cur.ledger, rfl, fun _ h => (by cases h), fun _ _ => rfl⟩
  | cons l ls ih =>
    intro cur hn hc
    have hnd := List.nodup_cons.1 hn
    have hl := hc l (List.mem_cons_self ..)
    rw [List.flatMap_cons, crG_append, List.flatten_append, cr_writes_append]
    by_cases he : (d.ledger l).isEmpty = true
    · simp only [he, if_true]
      rw [crG_append1, cr_append1]
      obtain ⟨L, h1, h2, h3⟩ := ih { cur with ledger := fun k => if k = l then cur.ledger k ++ P.genesis l else cur.ledger k } hnd.2
        (fun k hk => by
          have hkl : k ≠ l := fun h => hnd.1 (h ▸ hk)
          simp only [hkl, if_false]
          exact hc k (List.mem_cons_of_mem _ hk))
      refine ⟨L, h1, fun k hk => ?_, fun k hk => ?_⟩
      · rcases List.mem_cons.1 hk with rfl | hk
        · rw [h3 k hnd.1]
          simp only [if_true, he, hl]
          rw [List.isEmpty_iff.1 he]; rfl
        · exact h2 k hk
      · rw [h3 k (fun h' => hk (List.mem_cons_of_mem _ h'))]
        have hkl : k ≠ l := fun h => hk (h ▸ List.mem_cons_self ..)
        simp [hkl]
    · have he' : (d.ledger l).isEmpty = false := by simpa using he
      simp only [he', Bool.false_eq_true, if_false]
      rw [crG_nil]
      obtain ⟨L, h1, h2, h3⟩ := ih cur hnd.2 (fun k hk => hc k (List.mem_cons_of_mem _ hk))
      refine ⟨L, h1, fun k hk => ?_, fun k hk => h3 k (fun h' => hk (List.mem_cons_of_mem _ h'))⟩
      rcases List.mem_cons.1 hk with rfl | hk
      · rw [h3 k hnd.1, hl]; simp [he']
      · exact h2 k hk

theorem cr_genesis_alw {I : Disk σ → Prop} {g : Option Grain} {P : Pool} {d : Disk σ} : ∀ (ls : List Nat) (cur : Disk σ), ls.Nodup →
    (∀ l ∈ ls, d.ledger l = [] → ∀ d t, I d → d.ledger l ++ [t] <+: P.genesis l → I (write d (.append l t))) →
    (∀ l ∈ ls, cur.ledger l = d.ledger l) → I cur →
    CrAlw I cur (crG g (ls.flatMap fun l => if (d.ledger l).isEmpty then (P.genesis l).map fun t => [[.append l t]] else [])) := by
  intro ls
  induction ls with
  | nil => intro cur _ _ _ hI; rw [List.flatMap_nil, crG_nil]; exact hI
  | cons l ls ih =>
    intro cur hn hgen hc hI
    have hnd := List.nodup_cons.1 hn
    have hl := hc l (List.mem_cons_self ..)
    rw [List.flatMap_cons, crG_append]
    by_cases he : (d.ledger l).isEmpty = true
    · simp only [he, if_true]
      rw [crG_append1]
      have h1 := cr_append1_alw (hgen l (List.mem_cons_self ..) (List.isEmpty_iff.1 he)) (P.genesis l) cur hI
        (by rw [hl, List.isEmpty_iff.1 he]; exact List.prefix_refl _)
      refine h1.append (ih _ hnd.2 (fun k hk => hgen k (List.mem_cons_of_mem _ hk)) (fun k hk => ?_) h1.last)
      rw [cr_append1]
      have hkl : k ≠ l := fun h => hnd.1 (h ▸ hk)
      simp only [hkl, if_false]
      exact hc k (List.mem_cons_of_mem _ hk)
    · have he' : (d.ledger l).isEmpty = false := by simpa using he
      simp only [he', Bool.false_eq_true, if_false]
      rw [crG_nil]
      exact ih cur hnd.2 (fun k hk => hgen k (List.mem_cons_of_mem _ hk)) (fun k hk => hc k (List.mem_cons_of_mem _ hk)) hI

/-- A state with another value. -/
def crSet (d : Disk σ) (l : Nat) (s : σ) : Disk σ := { d with state := fun k => if k = l then s else d.state k }

theorem cr_rebuild (E : Env σ) (l : Nat) : ∀ (ts : List Txn) (d : Disk σ) (s : σ), d.state l = s →
    writes d (rebuild E l s ts) = crSet d l (ts.foldl E.upd s) := by
  intro ts
  induction ts with
  | nil =>
    intro d s h
    show d = Disk.mk _ _ _ _ _ _
    have : (fun k => if k = l then s else d.state k) = d.state := by
      funext k; by_cases hk : k = l
      · simp [hk, h]
      · simp [hk]
    simp only [List.foldl_nil]
    rw [this]
  | cons t ts ih =>
    intro d s h
    rw [rebuild, cr_writes_cons, ih _ _ (by simp [write])]
    show Disk.mk _ _ _ _ _ _ = Disk.mk _ _ _ _ _ _
    congr 1
    funext k
    simp only [write]
    by_cases hk : k = l <;> simp [hk]

theorem cr_rebuild_alw {I : Disk σ → Prop} {g : Option Grain} [DecidableEq σ] {E : Env σ} {d : Disk σ} :
    ∀ (ls : List Nat) (cur : Disk σ), ls.Nodup →
    (∀ l ∈ ls, ∀ d, I d → d.state l = E.empty → CrAlw I d (crG g [[rebuild E l E.empty (d.ledger l)]])) →
    cur.ledger = d.ledger → (∀ l ∈ ls, cur.state l = d.state l) → I cur →
    CrAlw I cur (crG g (ls.map fun l => [if d.state l = E.empty then rebuild E l E.empty (d.ledger l) else []])) ∧
    ∃ S : Nat → σ, writes cur (ls.map fun l => [if d.state l = E.empty then rebuild E l E.empty (d.ledger l) else []]).flatten.flatten =
        { cur with state := S } ∧
      (∀ l ∈ ls, S l = if d.state l = E.empty then replay E (d.ledger l) else d.state l) ∧ ∀ k, k ∉ ls → S k = cur.state k := by
  intro ls
  induction ls with
  | nil =>
    intro cur _ _ _ _ hI
    rw [List.map_nil, crG_nil]
    exact ⟨hI, cur.state, rfl, fun _ h => (by cases h), fun _ _ => rfl⟩
  | cons l ls ih =>
    intro cur hn hreb hcl hc hI
    have hnd := List.nodup_cons.1 hn
    have hl := hc l (List.mem_cons_self ..)
    rw [List.map_cons, crG_cons]
    simp only [List.flatten_cons, List.flatten_append, List.flatten_nil, List.append_nil]
    by_cases he : d.state l = E.empty
    · simp only [he, if_true]
      have h1 := hreb l (List.mem_cons_self ..) cur hI (hl.trans he)
      rw [hcl] at h1
      have heff : writes cur (rebuild E l E.empty (d.ledger l)) = crSet cur l (replay E (d.ledger l)) :=
        cr_rebuild E l _ _ _ (hl.trans he)
      have heff' : writes cur (crG g [[rebuild E l E.empty (d.ledger l)]]).flatten = crSet cur l (replay E (d.ledger l)) := by
        rw [crG_flatten]; simpa using heff
      have hlast := h1.last
      rw [heff'] at hlast
      obtain ⟨h2, S, h3, h4, h5⟩ := ih (crSet cur l (replay E (d.ledger l))) hnd.2
        (fun k hk => hreb k (List.mem_cons_of_mem _ hk)) hcl (fun k hk => by
          have hkl : k ≠ l := fun h => hnd.1 (h ▸ hk)
          show (if k = l then _ else cur.state k) = _
          rw [if_neg hkl]
          exact hc k (List.mem_cons_of_mem _ hk)) hlast
      refine ⟨h1.append (by rw [heff']; exact h2), S, ?_, fun k hk => ?_, fun k hk => ?_⟩
      · rw [cr_writes_append, heff]; exact h3
      · rcases List.mem_cons.1 hk with rfl | hk
        · rw [h5 k hnd.1]
          simp [crSet, he]
        · exact h4 k hk
      · rw [h5 k (fun h' => hk (List.mem_cons_of_mem _ h'))]
        have hkl : k ≠ l := fun h => hk (h ▸ List.mem_cons_self ..)
        simp [crSet, hkl]
    · simp only [he, if_false]
      obtain ⟨h2, S, h3, h4, h5⟩ := ih cur hnd.2 (fun k hk => hreb k (List.mem_cons_of_mem _ hk)) hcl
        (fun k hk => hc k (List.mem_cons_of_mem _ hk)) hI
      have hnil : CrAlw I cur (crG g [[([] : List (Write σ))]]) := by
        match g with
        | none => exact hI
        | some .ledgerState => exact ⟨hI, hI⟩
        | some .whole => exact ⟨hI, hI⟩
      refine ⟨hnil.append (by rw [crG_flatten]; exact h2), S, h3, fun k hk => ?_, fun k hk => h5 k (fun h' => hk (List.mem_cons_of_mem _ h'))⟩
      rcases List.mem_cons.1 hk with rfl | hk
      · rw [h5 k hnd.1, hl]; simp [he]
      · exact h4 k hk

/-- All the writes of a start. -/
theorem cr_start {I : Disk σ → Prop} {g : Option Grain} [DecidableEq σ] {E : Env σ} {P : Pool} (hn : P.lids.Nodup)
    {d : Disk σ} (hgen : ∀ l ∈ P.lids, d.ledger l = [] → ∀ d' t, I d' → d'.state = d.state → d'.ledger l ++ [t] <+: P.genesis l →
      I (write d' (.append l t)))
    (hreb : ∀ l ∈ P.lids, ∀ d, I d → d.state l = E.empty → CrAlw I d (crG g [[rebuild E l E.empty (d.ledger l)]]))
    (hI : I d) : CrAlw I d (crG g (startSteps E P d)) ∧
    ∃ (L : Nat → List Txn) (S : Nat → σ), writes d (startSteps E P d).flatten.flatten = { d with ledger := L, state := S } ∧
      (∀ l ∈ P.lids, L l = if (d.ledger l).isEmpty then P.genesis l else d.ledger l) ∧
      (∀ l ∈ P.lids, S l = if d.state l = E.empty then replay E (L l) else d.state l) := by
  have h1 := (cr_genesis_alw (I := fun d' => I d' ∧ d'.state = d.state) (g := g) P.lids d hn
    (fun l hl he d' t hd' hp => ⟨hgen l hl he d' t hd'.1 hd'.2 hp, hd'.2⟩) (fun l _ => rfl) ⟨hI, rfl⟩).mono (B := I) (fun _ h => h.1)
  obtain ⟨L, h2, h3, _⟩ := cr_genesis_eff P d P.lids d hn (fun l _ => rfl)
  have h2' : writes d (genesisSteps P d).flatten.flatten = { d with ledger := L } := by
    rw [← h2, crG_flatten]; rfl
  have hl := h1.last
  have hfl : writes d (crG g (P.lids.flatMap fun l => if (d.ledger l).isEmpty then (P.genesis l).map fun t => [[.append l t]] else [])).flatten =
      { d with ledger := L } := by rw [crG_flatten]; exact h2'
  rw [hfl] at hl
  obtain ⟨h4, S, h5, h6, _⟩ := cr_rebuild_alw (g := g) (E := E) (d := { d with ledger := L }) P.lids { d with ledger := L } hn hreb rfl
    (fun l _ => rfl) hl
  unfold startSteps
  rw [h2', crG_append]
  refine ⟨CrAlw.append h1 ?_, L, S, ?_, h3, h6⟩
  · have hfl' : writes d (crG g (genesisSteps P d)).flatten = { d with ledger := L } := hfl
    rw [hfl']; exact h4
  · rw [List.flatten_append, List.flatten_append, cr_writes_append, h2']
    exact h5

/-! ## Histories -/

/-- `Tidy`, where crashes between all writes are allowed too. -/
def CrTidy [DecidableEq σ] (E : Env σ) (P : Pool) : Option Grain → Node σ → List Ev → Prop
  | none, _, _ => True
  | some g, n, evs => Tidy E P g n evs

/-- A crash where the grain allows it. -/
def CrBetween : Option Grain → Steps σ → Option Nat → Prop
  | none, _, _ => True
  | some g, steps, stop => Between (g.groups steps) stop

theorem cr_perform {A : Disk σ → Prop} {n : Node σ} {steps : Steps σ} {stop : Option Nat} {g : Option Grain} {after : Status}
    (h : CrAlw A n.disk (crG g steps)) (hb : CrBetween g steps stop) :
    A (perform n steps stop after).disk := by
  show A (writes n.disk (cut steps.flatten.flatten stop))
  match stop, g with
  | none, g =>
    have := h.last
    rw [crG_flatten] at this
    exact this
  | some j, none =>
    have := h.take j
    have he : ((crG none steps).take j).flatten = steps.flatten.flatten.take j := by
      show ((steps.flatten.flatten.map fun w => [w]).take j).flatten = _
      rw [← List.map_take, cr_singles]
    rw [he] at this
    exact this
  | some j, some g =>
    obtain ⟨i, hi⟩ := hb
    have := h.take i
    have he : ((g.groups steps).take i).flatten = steps.flatten.flatten.take j := by
      rw [← crG_flatten (some g), hi]
      show _ = List.take _ (g.groups steps).flatten
      have hsplit : (g.groups steps).flatten = ((g.groups steps).take i).flatten ++ ((g.groups steps).drop i).flatten := by
        rw [← List.flatten_append, List.take_append_drop]
      rw [hsplit, List.take_left']
      rfl
    show A (writes n.disk (steps.flatten.flatten.take j))
    rw [← he]
    exact this

/-- An invariant of histories: `A` for a node that runs, and `A0` for one that may be stopped. -/
theorem cr_run [DecidableEq σ] {E : Env σ} {P : Pool} {g : Option Grain} {A A0 : Disk σ → Prop} (h0 : ∀ d, A d → A0 d)
    (hs : ∀ d, A0 d → CrAlw A0 d (crG g (startSteps E P d)) ∧ A (writes d (startSteps E P d).flatten.flatten))
    (hc : ∀ d m, A d → m ≤ P.batches.length → CrAlw A d (crG g (catchupSteps E P d m)))
    (hb : ∀ d b, A d → P.batches[d.audit]? = some b → canCommit E P d b = true → CrAlw A d (crG g (commitSteps E P d b)))
    (evs : List Ev) : ∀ (n : Node σ), CrTidy E P g n evs → (A0 n.disk ∧ (n.status ≠ .down → A n.disk)) →
      (A0 (run E P n evs).disk ∧ ((run E P n evs).status ≠ .down → A (run E P n evs).disk)) := by
  induction evs with
  | nil => intro n _ h; exact h
  | cons e es ih =>
    intro n ht h
    have ht1 : (match stepsOf E P n e with
      | none => True
      | some (steps, stop, _) => CrBetween g steps stop) ∧ CrTidy E P g (step E P n e) es := by
      clear hs hc hb ih
      cases g with
      | none => exact ⟨(by cases stepsOf E P n e <;> trivial), trivial⟩
      | some g => exact ht
    refine ih _ ht1.2 ?_
    unfold step
    cases hst : stepsOf E P n e with
    | none => exact h
    | some r =>
      obtain ⟨steps, stop, after⟩ := r
      rw [hst] at ht1
      have hb1 := ht1.1
      simp only at hb1 ⊢
      -- either the node was down and starts, or it was up
      have key : CrAlw A0 n.disk (crG g steps) ∧ (stop = none → A (writes n.disk steps.flatten.flatten)) := by
        have hup : CrAlw A n.disk (crG g steps) → CrAlw A0 n.disk (crG g steps) ∧ (stop = none → A (writes n.disk steps.flatten.flatten)) := by
          intro h1
          refine ⟨h1.mono h0, fun _ => ?_⟩
          have := h1.last
          rwa [crG_flatten] at this
        cases e with
        | start st =>
          simp only [stepsOf] at hst
          by_cases hd : n.status = .down
          · rw [if_pos hd] at hst
            simp only [Option.some.injEq, Prod.mk.injEq] at hst
            obtain ⟨rfl, rfl, rfl⟩ := hst
            exact ⟨(hs n.disk h.1).1, fun _ => (hs n.disk h.1).2⟩
          · rw [if_neg hd] at hst; cases hst
        | catchup m st =>
          simp only [stepsOf] at hst
          by_cases hd : n.status ≠ .down ∧ m ≤ P.batches.length
          · rw [if_pos hd] at hst
            simp only [Option.some.injEq, Prod.mk.injEq] at hst
            obtain ⟨rfl, rfl, rfl⟩ := hst
            exact hup (hc n.disk m (h.2 hd.1) hd.2)
          · rw [if_neg hd] at hst; cases hst
        | commit st =>
          simp only [stepsOf] at hst
          cases hbt : P.batches[n.disk.audit]? with
          | none => rw [hbt] at hst; cases hst
          | some b =>
            rw [hbt] at hst
            simp only at hst
            by_cases hd : n.status = .synced ∧ canCommit E P n.disk b = true
            · rw [if_pos hd] at hst
              simp only [Option.some.injEq, Prod.mk.injEq] at hst
              obtain ⟨rfl, rfl, rfl⟩ := hst
              exact hup (hb n.disk b (h.2 (by rw [hd.1]; intro h'; cases h')) hbt hd.2)
            · rw [if_neg hd] at hst; cases hst
      refine ⟨cr_perform key.1 hb1, ?_⟩
      unfold perform
      intro hne
      cases stop with
      | none => exact key.2 rfl
      | some j => exact absurd rfl hne

/-! ## The ledgers -/

theorem cr_led_ext {P : Pool} {d d' : Disk σ} (h : CrLed P d) (h1 : d'.ledger = d.ledger) (h2 : d'.audit = d.audit) : CrLed P d' := by
  unfold CrLed
  rw [h1, h2]
  exact h

/-- Writes that change neither the ledgers nor the audit ledger. -/
def CrSoft (w : Write σ) : Prop := ∀ d, (write d w).ledger = d.ledger ∧ (write d w).audit = d.audit

theorem cr_led_soft {P : Pool} : ∀ (ws : List (Write σ)) (d : Disk σ), (∀ w ∈ ws, CrSoft w) → CrLed P d →
    CrAlw (CrLed P) d (ws.map fun w => [w]) := by
  intro ws
  induction ws with
  | nil => intro d _ h; exact h
  | cons w ws ih =>
    intro d hs h
    obtain ⟨h1, h2⟩ := hs w (List.mem_cons_self ..) d
    exact ⟨h, ih _ (fun w' hw' => hs w' (List.mem_cons_of_mem _ hw')) (cr_led_ext h h1 h2)⟩

theorem cr_soft_state (l : Nat) (s : σ) : CrSoft (.state l s) := fun _ => ⟨rfl, rfl⟩

theorem cr_soft_seq (l n : Nat) (ts : List Txn) : ∀ w ∈ (seqWrites (σ := σ) l n ts).flatten, CrSoft w := by
  intro w hw
  unfold seqWrites at hw
  split at hw
  · simp at hw
    rcases hw with rfl | rfl <;> exact fun _ => ⟨rfl, rfl⟩
  · cases hw

theorem cr_soft_ts (P : Pool) (l time : Nat) (s : σ) : ∀ w ∈ (tsWrites P l time s).flatten, CrSoft w := by
  intro w hw
  unfold tsWrites at hw
  split at hw
  · simp at hw
    rcases hw with rfl
    exact fun _ => ⟨rfl, rfl⟩
  · cases hw

theorem cr_led_append {P : Pool} {d : Disk σ} {l : Nat} {t : Txn} (h : CrLed P d)
    (hp : d.ledger l ++ [t] <+: P.ledger P.batches.length l) : CrLed P (write d (.append l t)) := by
  refine ⟨h.1, fun k hk => ?_⟩
  simp only [write]
  by_cases hkl : k = l
  · subst hkl; simpa using hp
  · simp only [hkl, if_false]; exact h.2 k hk

theorem cr_led_add {E : Env σ} {P : Pool} {l : Nat} {d : Disk σ} {t : Txn} (h : CrLed P d)
    (hp : d.ledger l ++ [t] <+: P.ledger P.batches.length l) :
    CrAlw (CrLed P) d (crG none [addTxn E P l (d.state l) (d.ledger l).length t]) := by
  show CrAlw (CrLed P) d ([addTxn E P l (d.state l) (d.ledger l).length t].flatten.flatten.map fun w => [w])
  rw [List.flatten_singleton]
  unfold addTxn
  refine ⟨h, cr_led_soft _ _ (fun w hw => ?_) (cr_led_append h hp)⟩
  simp only [List.flatten_append, List.append_eq, List.mem_append, List.nil_append, List.mem_cons] at hw
  rcases hw with (rfl | hw) | hw | hw
  · exact cr_soft_state _ _
  · cases hw
  · cases ht : t.time with
    | none => rw [ht] at hw; cases hw
    | some time => rw [ht] at hw; exact cr_soft_ts _ _ _ _ w hw
  · exact cr_soft_seq _ _ _ w hw

theorem cr_led_catchup {E : Env σ} {P : Pool} (hn : P.lids.Nodup) {d : Disk σ} (h : CrLed P d) {m : Nat}
    (hm : m ≤ P.batches.length) : CrAlw (CrLed P) d (crG none (catchupSteps E P d m)) :=
  cr_catchup_alw hn (fun _ _ _ _ h hp => cr_led_add h hp) (fun _ h hlt => ⟨hlt, h.2⟩) h h hm

theorem cr_led_gen {P : Pool} {l : Nat} {d : Disk σ} {t : Txn} (h : CrLed P d)
    (hp : d.ledger l ++ [t] <+: P.genesis l) : CrLed P (write d (.append l t)) :=
  cr_led_append h (hp.trans (List.prefix_append _ _))

theorem cr_led_appends {P : Pool} {l : Nat} {rest : List (List (Write σ))} : ∀ (ts : List Txn) (d : Disk σ), CrLed P d →
    d.ledger l ++ ts <+: P.ledger P.batches.length l →
    CrAlw (CrLed P) (writes d (ts.map (Write.append l))) rest →
    CrAlw (CrLed P) d ((ts.map (Write.append l)).map (fun w => [w]) ++ rest) := by
  intro ts
  induction ts with
  | nil => intro d _ _ hr; exact hr
  | cons t ts ih =>
    intro d h hp hr
    have h1 : CrLed P (write d (.append l t)) := cr_led_append h (List.IsPrefix.trans ⟨ts, by simp⟩ hp)
    refine ⟨h, ih _ h1 ?_ hr⟩
    have : (writes d [Write.append l t]).ledger l = d.ledger l ++ [t] := by simp [writes, write]
    rw [this]
    simpa using hp

theorem cr_led_audit {P : Pool} {d : Disk σ} (h : CrLed P d) (hlt : d.audit < P.batches.length) : CrLed P (write d .audit) :=
  ⟨hlt, h.2⟩

theorem cr_canCommit [DecidableEq σ] {E : Env σ} {P : Pool} {d : Disk σ} {b : Batch} (h : canCommit E P d b = true) :
    d.ledger b.lid ++ b.txns = P.ledger (d.audit + 1) b.lid ∧
    b.txns.foldl E.upd (d.state b.lid) = replay E (P.ledger (d.audit + 1) b.lid) := by
  unfold canCommit at h
  simp only [Bool.and_eq_true, decide_eq_true_eq] at h
  exact ⟨h.1.2, h.2⟩

theorem cr_led_commit [DecidableEq σ] {E : Env σ} {P : Pool} {d : Disk σ} {b : Batch} (h : CrLed P d)
    (hb : P.batches[d.audit]? = some b) (hc : canCommit E P d b = true) :
    CrAlw (CrLed P) d (crG none (commitSteps E P d b)) := by
  have hlt : d.audit < P.batches.length := by
    apply Classical.byContradiction
    intro hge
    rw [List.getElem?_eq_none (by omega)] at hb; cases hb
  have hp : d.ledger b.lid ++ b.txns <+: P.ledger P.batches.length b.lid := by
    rw [(cr_canCommit hc).1]; exact cr_pool_le P hlt _
  show CrAlw (CrLed P) d ((commitSteps E P d b).flatten.flatten.map fun w => [w])
  unfold commitSteps ledgerWrites
  simp only [List.flatten_cons, List.flatten_nil, List.append_nil, List.flatten_append, List.map_append, List.append_assoc]
  refine cr_led_appends _ _ h hp ?_
  rw [cr_appends]
  have h1 : CrLed P ({ d with ledger := fun k => if k = b.lid then d.ledger k ++ b.txns else d.ledger k } : Disk σ) := by
    refine ⟨h.1, fun k hk => ?_⟩
    simp only
    by_cases hkl : k = b.lid
    · subst hkl; simpa using hp
    · simp only [hkl, if_false]; exact h.2 k hk
  refine ⟨h1, cr_led_ext h1 rfl rfl, ?_⟩
  rw [← List.map_append]
  refine cr_led_soft _ _ (fun w hw => ?_) (cr_led_audit (cr_led_ext h1 rfl rfl) hlt)
  rcases List.mem_append.1 hw with hw | hw
  · exact cr_soft_ts _ _ _ _ w hw
  · exact cr_soft_seq _ _ _ w hw

theorem cr_led_rebuild {P : Pool} {E : Env σ} {l : Nat} {d : Disk σ} (h : CrLed P d) :
    CrAlw (CrLed P) d (crG none [[rebuild E l E.empty (d.ledger l)]]) := by
  show CrAlw (CrLed P) d (([[rebuild E l E.empty (d.ledger l)]] : Steps σ).flatten.flatten.map fun w => [w])
  refine cr_led_soft _ _ (fun w hw => ?_) h
  simp only [List.flatten_cons, List.flatten_nil, List.append_nil] at hw
  have : ∀ (ts : List Txn) (s : σ), ∀ w ∈ rebuild E l s ts, CrSoft w := by
    intro ts
    induction ts with
    | nil => intro s w hw; cases hw
    | cons t ts ih =>
      intro s w hw
      rcases List.mem_cons.1 hw with rfl | hw
      · exact cr_soft_state _ _
      · exact ih _ w hw
  exact this _ _ w hw

theorem cr_led_init (P : Pool) (E : Env σ) : CrLed P (Crash.init E).disk :=
  ⟨Nat.zero_le _, fun _ _ => ⟨_, List.nil_append _⟩⟩

theorem cr_led_run [DecidableEq σ] (E : Env σ) {P : Pool} (hn : P.lids.Nodup) (evs : List Ev) (n : Node σ) (h : CrLed P n.disk) :
    CrLed P (run E P n evs).disk :=
  (cr_run (g := none) (A := CrLed P) (A0 := CrLed P) (fun _ h => h)
    (fun d h => by
      have h1 := cr_start (g := none) (E := E) hn (fun _ _ _ _ _ h _ hp => cr_led_gen h hp) (fun _ _ _ h _ => cr_led_rebuild h) h
      refine ⟨h1.1, ?_⟩
      have := h1.1.last
      rwa [crG_flatten] at this)
    (fun _ _ h hm => cr_led_catchup hn h hm)
    (fun _ _ h hb hc => cr_led_commit h hb hc) evs n trivial ⟨h, fun _ => h⟩).1

end Verif.Props
