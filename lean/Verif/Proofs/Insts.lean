import Verif.Spec.Insts
import Verif.Proofs.Count
import Verif.Props.Primary
/-!
# Proofs about the protocol instances of a node
-/
namespace Verif.Insts
open Verif Verif.Primary

/-! ## Dicts -/

theorem keys_set_has {d : Dict Nat Replica} {i : Nat} (h : d.has i = true) (r : Replica) :
    (d.set i r).keys = d.keys := by
  induction d with
  | nil => simp [Dict.has] at h
  | cons e d ih =>
    obtain ⟨k, v⟩ := e
    by_cases hk : k = i
    · simp [Dict.set, hk, Dict.keys]
    · have : Dict.has d i = true := by simpa [Dict.has, Dict.get?_cons, hk] using h
      have := ih this
      simp only [Dict.keys] at this
      simp [Dict.set, hk, Dict.keys, this]

theorem get?_mapv (d : Dict Nat Replica) (f : Replica → Replica) (j : Nat) :
    Dict.get? (d.map (fun e => (e.1, f e.2))) j = (d.get? j).map f := by
  induction d with
  | nil => rfl
  | cons e d ih =>
    rw [List.map_cons, Dict.get?_cons, Dict.get?_cons]
    by_cases h : e.1 = j
    · simp [h]
    · simp [h, ih]

theorem keys_mapv (d : Dict Nat Replica) (f : Replica → Replica) :
    Dict.keys (d.map (fun e => (e.1, f e.2))) = d.keys := by
  simp [Dict.keys]

theorem mem_keys_has {α} (d : Dict Nat α) (i : Nat) : i ∈ d.keys ↔ d.has i = true := by
  rw [Dict.mem_keys, Dict.has_iff]

theorem has_set {α} (d : Dict Nat α) (k : Nat) (v : α) (j : Nat) : (d.set k v).has j = true ↔ k = j ∨ d.has j = true := by
  unfold Dict.has
  rw [Dict.get?_set]
  by_cases h : k = j <;> simp [h]

theorem length_keys {α} (d : Dict Nat α) : d.keys.length = d.length := by simp [Dict.keys]

/-- A node that runs exactly the first `k` instances has `k` replicas. -/
theorem Runs.length {s : State} {k : Nat} (hn : s.replicas.keys.Nodup) (h : Runs s k) : s.replicas.length = k := by
  have h1 := length_le_of_subset (A := s.replicas.keys) (B := List.range k) hn
    (fun x hx => List.mem_range.2 ((h x).1 ((mem_keys_has _ _).1 hx)))
  have h2 := length_le_of_subset (A := List.range k) (B := s.replicas.keys) List.nodup_range
    (fun x hx => (mem_keys_has _ _).2 ((h x).2 (List.mem_range.1 hx)))
  rw [List.length_range, length_keys] at h1 h2
  omega

/-- If the first ones, as many as there are replicas, are all there, there are no others. -/
theorem runs_of_prefix {s : State}
    (h : ∀ j, j < s.replicas.length → s.replicas.has j = true) : Runs s s.replicas.length := by
  intro i
  refine ⟨fun hi => ?_, h i⟩
  apply Classical.byContradiction
  intro hc
  have := length_le_of_subset (A := i :: List.range s.replicas.length) (B := s.replicas.keys)
    (List.nodup_cons.2 ⟨by simp only [List.mem_range]; exact hc, List.nodup_range⟩)
    (fun x hx => by
      rcases List.mem_cons.1 hx with rfl | hx
      · exact (mem_keys_has _ _).2 hi
      · exact (mem_keys_has _ _).2 (h x (List.mem_range.1 hx)))
  rw [List.length_cons, List.length_range, length_keys] at this
  omega

/-- If one of the first ones is missing, there is a later one. -/
theorem later_of_hole {s : State} (hn : s.replicas.keys.Nodup) {j : Nat} (hj : j < s.replicas.length)
    (hm : s.replicas.has j = false) : ∃ i, s.replicas.length ≤ i ∧ s.replicas.has i = true := by
  apply Classical.byContradiction
  intro hc
  have hlt : ∀ i, s.replicas.has i = true → i < s.replicas.length := fun i hi =>
    Nat.lt_of_not_le fun h => hc ⟨i, h, hi⟩
  have := length_le_of_subset (A := j :: s.replicas.keys) (B := List.range s.replicas.length)
    (List.nodup_cons.2 ⟨fun h => by rw [mem_keys_has, hm] at h; exact Bool.false_ne_true h, hn⟩)
    (fun x hx => by
      rcases List.mem_cons.1 hx with rfl | hx
      · exact List.mem_range.2 hj
      · exact List.mem_range.2 (hlt x ((mem_keys_has _ _).1 hx)))
  rw [List.length_cons, List.length_range, length_keys] at this
  omega

theorem bound_of_has (d : Dict Nat Replica) (i : Nat) (h : d.has i = true) :
    i < d.foldr (fun e m => max (e.1 + 1) m) 0 := by
  induction d with
  | nil => simp [Dict.has] at h
  | cons e d ih =>
    rw [List.foldr_cons]
    by_cases hk : e.1 = i
    · omega
    · have := ih (by simpa [Dict.has, Dict.get?_cons, hk] using h)
      omega

theorem mem_sortedIds (d : Dict Nat Replica) (i : Nat) : i ∈ sortedIds d ↔ d.has i = true := by
  unfold sortedIds
  rw [List.mem_filter, List.mem_range]
  exact ⟨fun h => h.2, fun h => ⟨bound_of_has d i h, h⟩⟩

theorem filter_range_lt (n k : Nat) (p : Nat → Bool) (hk : k ≤ n) (hp : ∀ i, p i = true ↔ i < k) :
    (List.range n).filter p = List.range k := by
  obtain ⟨m, rfl⟩ := Nat.exists_eq_add_of_le hk
  rw [List.range_add, List.filter_append, List.filter_eq_self.2, List.filter_eq_nil_iff.2, List.append_nil]
  · intro a ha
    obtain ⟨b, _, rfl⟩ := List.mem_map.1 ha
    rw [hp]; omega
  · intro a ha
    exact (hp a).2 (List.mem_range.1 ha)

theorem sortedIds_runs {s : State} {k : Nat} (h : Runs s k) : sortedIds s.replicas = List.range k := by
  unfold sortedIds
  refine filter_range_lt _ _ _ ?_ h
  cases k with
  | zero => omega
  | succ k => exact bound_of_has _ k ((h k).2 (by omega))

/-! ## Well-formed states -/

/-- What always holds: a replica for an instance once, messages kept where they belong, numbers given
once. -/
structure Wf (s : State) : Prop where
  nodup : s.replicas.keys.Nodup
  stash : ∀ i l, s.stash.get? i = some l → ∀ m ∈ l, m.kind = .other ∨ (m.kind = .threePhase ∧ m.inst = some i)
  serial : ∀ i r, s.replicas.get? i = some r → r.serial < s.nextSerial

/-- The messages of a list that a new replica is given. -/
def delivered (l : List Msg) : List Msg := l.filter (fun m => m.kind = .threePhase)

theorem dispatch_fold (l : List Msg) (i : Nat)
    (hl : ∀ m ∈ l, m.kind = .other ∨ (m.kind = .threePhase ∧ m.inst = some i)) (s : State) (r : Replica)
    (hr : s.replicas.get? i = some r) :
    let t := l.foldl dispatch s
    t.required = s.required ∧ t.stash = s.stash ∧ t.nextSerial = s.nextSerial ∧ t.now = s.now ∧ t.crashed = s.crashed ∧
    t.replicas.keys = s.replicas.keys ∧ t.replicas.get? i = some { r with inbox := r.inbox ++ delivered l } ∧
    ∀ j, j ≠ i → t.replicas.get? j = s.replicas.get? j := by
  induction l generalizing s r with
  | nil => simp [delivered, hr]
  | cons m l ih =>
    have hl' := fun x hx => hl x (List.mem_cons_of_mem _ hx)
    rcases hl m List.mem_cons_self with hm | ⟨hm, hi⟩
    · have := ih hl' s r hr
      have hd : dispatch s m = s := by unfold dispatch; rw [if_pos hm]
      simp only [List.foldl_cons, hd]
      have hf : delivered (m :: l) = delivered l := by simp [delivered, hm]
      rw [hf]
      exact this
    · have hd : dispatch s m = { s with replicas := s.replicas.set i { r with inbox := r.inbox ++ [m] } } := by
        unfold dispatch
        rw [if_neg (by rw [hm]; decide)]
        have ht : target m none = some i := by simp [target, hm, hi]
        have hh : s.replicas.has i = true := by rw [Dict.has, hr]; rfl
        simp only [sendToReplica, ht, hh, if_true, passMessage, hr]
      simp only [List.foldl_cons, hd]
      obtain ⟨h1, h2, h3, h4, h5, h6, h7, h8⟩ := ih hl'
        { s with replicas := s.replicas.set i { r with inbox := r.inbox ++ [m] } } { r with inbox := r.inbox ++ [m] }
        (by simp [Dict.get?_set])
      refine ⟨h1, h2, h3, h4, h5, ?_, ?_, ?_⟩
      · rw [h6]; exact keys_set_has (by rw [Dict.has, hr]; rfl) _
      · rw [h7]; simp [delivered, hm]
      · intro j hj
        rw [h8 j hj]
        simp only [Dict.get?_set, if_neg (Ne.symm hj)]

/-- A replica that has just been added. -/
def fresh (serial now : Nat) (l : Option (List Msg)) : Replica :=
  { serial := serial, inbox := delivered (l.getD []), lost := some now }

theorem add_process {s : State} (hs : Wf s) (k : Nat) :
    let t := processStashed (addReplica s k) k
    Wf t ∧ t.required = s.required ∧ t.nextSerial = s.nextSerial + 1 ∧ t.now = s.now ∧ t.crashed = s.crashed ∧
    (∀ j, t.replicas.get? j = if j = k then some (fresh s.nextSerial s.now (s.stash.get? k)) else s.replicas.get? j) ∧
    ∀ j, j ≠ k → t.stash.get? j = s.stash.get? j := by
  have hnd : (addReplica s k).replicas.keys.Nodup := Dict.nodup_keys_set hs.nodup _ _
  have hser : ∀ i r, (addReplica s k).replicas.get? i = some r → r.serial < s.nextSerial + 1 := by
    intro i r h
    simp only [addReplica, Dict.get?_set] at h
    by_cases e : k = i
    · rw [if_pos e] at h; cases h; exact Nat.lt_succ_self _
    · rw [if_neg e] at h; exact Nat.lt_succ_of_lt (hs.serial i r h)
  cases hst : s.stash.get? k with
  | none =>
    have ht : processStashed (addReplica s k) k = addReplica s k := by
      simp only [processStashed, addReplica, hst]
    simp only [ht]
    refine ⟨⟨hnd, hs.stash, hser⟩, rfl, rfl, rfl, rfl, ?_, fun _ _ => rfl⟩
    intro j
    simp only [addReplica, Dict.get?_set, fresh, delivered, Option.getD_none, List.filter_nil]
    by_cases e : k = j <;> simp [e, eq_comm]
  | some l =>
    have ht : processStashed (addReplica s k) k =
        l.foldl dispatch { addReplica s k with stash := (addReplica s k).stash.set k [] } := by
      simp only [processStashed, addReplica, hst]
    simp only [ht]
    obtain ⟨h1, h2, h3, h4, h5, h6, h7, h8⟩ := dispatch_fold l k (hs.stash k l hst)
      { addReplica s k with stash := (addReplica s k).stash.set k [] } { serial := s.nextSerial, lost := some s.now }
      (by simp [addReplica, Dict.get?_set])
    have hget : ∀ j, (l.foldl dispatch { addReplica s k with stash := (addReplica s k).stash.set k [] }).replicas.get? j =
        if j = k then some (fresh s.nextSerial s.now (some l)) else s.replicas.get? j := by
      intro j
      by_cases e : j = k
      · subst e; rw [if_pos rfl, h7]; simp [fresh]
      · rw [if_neg e, h8 j e]; simp only [addReplica, Dict.get?_set, if_neg (Ne.symm e)]
    refine ⟨⟨by rw [h6]; exact hnd, ?_, ?_⟩, h1, by rw [h3]; rfl, h4, h5, hget, ?_⟩
    · intro i l' h
      rw [h2] at h
      simp only [Dict.get?_set] at h
      by_cases e : k = i
      · rw [if_pos e] at h; cases h; simp
      · rw [if_neg e] at h; exact hs.stash i l' h
    · intro i r h
      rw [h3]
      rw [hget] at h
      by_cases e : i = k
      · rw [if_pos e] at h; cases h; exact Nat.lt_succ_self _
      · rw [if_neg e] at h; exact Nat.lt_succ_of_lt (hs.serial i r h)
    · intro j hj
      rw [h2]
      simp only [Dict.get?_set, if_neg (Ne.symm hj), addReplica]

theorem grow_spec (n : Nat) {s : State} (hs : Wf s) (k : Nat) :
    let t := grow s k n
    Wf t ∧ t.required = s.required ∧ t.nextSerial = s.nextSerial + n ∧ t.now = s.now ∧ t.crashed = s.crashed ∧
    (∀ j, t.replicas.get? j = if k ≤ j ∧ j < k + n then some (fresh (s.nextSerial + (j - k)) s.now (s.stash.get? j))
      else s.replicas.get? j) ∧
    ∀ j, ¬ (k ≤ j ∧ j < k + n) → t.stash.get? j = s.stash.get? j := by
  induction n generalizing s k with
  | zero =>
    refine ⟨hs, rfl, rfl, rfl, rfl, fun j => ?_, fun _ _ => rfl⟩
    rw [if_neg (by omega)]; rfl
  | succ n ih =>
    obtain ⟨a1, a2, a3, a4, a5, a6, a7⟩ := add_process hs k
    obtain ⟨b1, b2, b3, b4, b5, b6, b7⟩ := ih a1 (k + 1)
    simp only [grow]
    refine ⟨b1, b2.trans a2, by rw [b3, a3]; omega, b4.trans a4, b5.trans a5, fun j => ?_, fun j hj => ?_⟩
    · rw [b6 j]
      by_cases h1 : k + 1 ≤ j ∧ j < k + 1 + n
      · rw [if_pos h1, if_pos (by omega), a3, a4, a7 j (by omega)]
        have : s.nextSerial + 1 + (j - (k + 1)) = s.nextSerial + (j - k) := by omega
        rw [this]
      · rw [if_neg h1, a6 j]
        by_cases h2 : j = k
        · subst h2; rw [if_pos rfl, if_pos (by omega), Nat.sub_self]; rfl
        · rw [if_neg h2, if_neg (by omega)]
    · rw [b7 j (by omega), a7 j (by omega)]

theorem erase_wf {s : State} (hs : Wf s) (i : Nat) : Wf (removeReplica s i) := by
  refine ⟨Dict.nodup_keys_erase hs.nodup i, hs.stash, fun j r h => ?_⟩
  simp only [removeReplica, Dict.get?_erase] at h
  by_cases e : i = j
  · rw [if_pos e] at h; cases h
  · rw [if_neg e] at h; exact hs.serial j r h

theorem shrink_spec (n : Nat) {s : State} (hs : Wf s) (k : Nat) (hn : n ≤ k) :
    let t := shrink s k n
    Wf t ∧ t.required = s.required ∧ t.nextSerial = s.nextSerial ∧ t.now = s.now ∧ t.crashed = s.crashed ∧
    (∀ j, t.replicas.get? j = if k - n ≤ j ∧ j < k then none else s.replicas.get? j) ∧ t.stash = s.stash := by
  induction n generalizing s k with
  | zero =>
    refine ⟨hs, rfl, rfl, rfl, rfl, fun j => ?_, rfl⟩
    rw [if_neg (by omega)]; rfl
  | succ n ih =>
    obtain ⟨b1, b2, b3, b4, b5, b6, b7⟩ := ih (erase_wf hs (k - 1)) (k - 1) (by omega)
    simp only [shrink]
    refine ⟨b1, b2, b3, b4, b5, fun j => ?_, b7⟩
    rw [b6 j]
    simp only [removeReplica, Dict.get?_erase]
    by_cases h1 : k - 1 - n ≤ j ∧ j < k - 1
    · rw [if_pos h1, if_pos (by omega)]
    · rw [if_neg h1]
      by_cases h2 : k - 1 = j
      · rw [if_pos h2, if_pos (by omega)]
      · rw [if_neg h2, if_neg (by omega)]

theorem adjust_spec {s : State} (hs : Wf s) (old new : Nat) :
    let t := adjustReplicas s old new
    Wf t ∧ t.required = s.required ∧ s.nextSerial ≤ t.nextSerial ∧ t.now = s.now ∧ t.crashed = s.crashed ∧
    (∀ j, t.replicas.get? j =
      if old ≤ j ∧ j < new then some (fresh (s.nextSerial + (j - old)) s.now (s.stash.get? j))
      else if new ≤ j ∧ j < old then none else s.replicas.get? j) ∧
    ∀ j, t.stash.get? j = if j < new then none else s.stash.get? j := by
  obtain ⟨a1, a2, a3, a4, a5, a6, a7⟩ := grow_spec (new - old) hs old
  obtain ⟨b1, b2, b3, b4, b5, b6, b7⟩ := shrink_spec (old - new) a1 old (by omega)
  have hst : ∀ j, (adjustReplicas s old new).stash.get? j = if j < new then none else s.stash.get? j := by
    intro j
    simp only [adjustReplicas, b7]
    have := Dict.get?_filter (grow s old (new - old)).stash (fun i => decide (¬ i < new)) j
    rw [this]
    by_cases h : j < new
    · simp [h]
    · rw [if_neg h, if_pos (by simp [h]), a7 j (by omega)]
  refine ⟨⟨b1.nodup, ?_, b1.serial⟩, b2.trans a2, ?_, b4.trans a4, b5.trans a5, fun j => ?_, hst⟩
  · intro i l h
    rw [hst i] at h
    by_cases e : i < new
    · rw [if_pos e] at h; cases h
    · rw [if_neg e] at h; exact hs.stash i l h
  · simp only [adjustReplicas, b3, a3]; omega
  · simp only [adjustReplicas]
    rw [b6 j, a6 j]
    by_cases h1 : old ≤ j ∧ j < new
    · rw [if_pos h1, if_neg (by omega), if_pos (by omega)]
    · rw [if_neg h1, if_neg (show ¬ (old ≤ j ∧ j < old + (new - old)) by omega)]
      by_cases h2 : new ≤ j ∧ j < old
      · rw [if_pos h2, if_pos (by omega)]
      · rw [if_neg h2, if_neg (by omega)]

/-! ## Primaries for replicas -/

/-- A replica that is given a primary if it has none. -/
def withPrimary (r : Replica) (p : Option Node) : Replica := { r with primary := r.primary.or p }

theorem gp_one {ps : List Node} {s : State} (hc : s.crashed = false) (i : Nat)
    (h : ∀ r, s.replicas.get? i = some r → r.primary = none → i < ps.length) :
    let t := givePrimary ps s i
    t.crashed = false ∧ t.required = s.required ∧ t.stash = s.stash ∧ t.nextSerial = s.nextSerial ∧ t.now = s.now ∧
    t.replicas.keys = s.replicas.keys ∧
    ∀ j, t.replicas.get? j = (s.replicas.get? j).map (fun r => if j = i then withPrimary r ps[j]? else r) := by
  intro t
  cases hr : s.replicas.get? i with
  | none =>
    have e : t = s := by simp [t, givePrimary, hc, hr]
    rw [e]
    refine ⟨hc, rfl, rfl, rfl, rfl, rfl, fun j => ?_⟩
    by_cases e : j = i
    · subst e; rw [hr]; rfl
    · simp [e]
  | some r =>
    cases hp : r.primary with
    | some p =>
      have e : t = s := by simp [t, givePrimary, hc, hr, hp]
      rw [e]
      refine ⟨hc, rfl, rfl, rfl, rfl, rfl, fun j => ?_⟩
      by_cases e : j = i
      · subst e
        have : withPrimary r ps[j]? = r := by
          unfold withPrimary
          rw [hp, Option.some_or, ← hp]
        simp [hr, this]
      · simp [e]
    | none =>
      have hi := h r hr hp
      have e : t = { s with replicas := s.replicas.set i { r with primary := some ps[i] } } := by
        simp [t, givePrimary, hc, hr, hp, List.getElem?_eq_getElem hi]
      rw [e]
      refine ⟨hc, rfl, rfl, rfl, rfl, keys_set_has (by rw [Dict.has, hr]; rfl) _, fun j => ?_⟩
      rw [Dict.get?_set]
      by_cases e : i = j
      · subst e
        simp [hr, withPrimary, hp, List.getElem?_eq_getElem hi]
      · simp [e, Ne.symm e]

theorem gp_fold (ps : List Node) (l : List Nat) {s : State} (hc : s.crashed = false)
    (h : ∀ i ∈ l, ∀ r, s.replicas.get? i = some r → r.primary = none → i < ps.length) :
    let t := l.foldl (givePrimary ps) s
    t.crashed = false ∧ t.required = s.required ∧ t.stash = s.stash ∧ t.nextSerial = s.nextSerial ∧ t.now = s.now ∧
    t.replicas.keys = s.replicas.keys ∧
    ∀ j, t.replicas.get? j = (s.replicas.get? j).map (fun r => if j ∈ l then withPrimary r ps[j]? else r) := by
  induction l generalizing s with
  | nil =>
    refine ⟨hc, rfl, rfl, rfl, rfl, rfl, fun j => ?_⟩
    simp
  | cons i l ih =>
    obtain ⟨a1, a2, a3, a4, a5, a6, a7⟩ := gp_one hc i (h i List.mem_cons_self)
    obtain ⟨b1, b2, b3, b4, b5, b6, b7⟩ := ih a1 (by
      intro j hj r hr hp
      rw [a7 j] at hr
      obtain ⟨r', hr', he⟩ := Option.map_eq_some_iff.1 hr
      refine h j (List.mem_cons_of_mem _ hj) r' hr' ?_
      by_cases e : j = i
      · rw [if_pos e] at he
        rw [← he] at hp
        simp only [withPrimary, Option.or_eq_none_iff] at hp
        exact hp.1
      · rw [if_neg e] at he; rw [he]; exact hp)
    simp only [List.foldl_cons]
    refine ⟨b1, b2.trans a2, b3.trans a3, b4.trans a4, b5.trans a5, b6.trans a6, fun j => ?_⟩
    rw [b7 j, a7 j, Option.map_map]
    congr 1
    funext r
    simp only [Function.comp, List.mem_cons]
    by_cases e1 : j = i <;> by_cases e2 : j ∈ l <;> simp only [e1, e2, if_true, if_false, or_true, or_false, true_or]
    · subst e1
      rw [if_pos e2]
      simp only [withPrimary]
      cases r.primary <;> cases ps[j]? <;> rfl
    · subst e1; rw [if_neg e2]

theorem gp_stuck (ps : List Node) (l : List Nat) {s : State} (hc : s.crashed = true) :
    (l.foldl (givePrimary ps) s) = s := by
  induction l generalizing s with
  | nil => rfl
  | cons i l ih =>
    have : givePrimary ps s i = s := by simp only [givePrimary, hc, if_true]
    rw [List.foldl_cons, this, ih hc]

theorem gp_crash (ps : List Node) (l : List Nat) {s : State} {i : Nat} {r : Replica} (hi : i ∈ l)
    (hr : s.replicas.get? i = some r) (hp : r.primary = none) (hl : ps.length ≤ i) :
    (l.foldl (givePrimary ps) s).crashed = true := by
  induction l generalizing s with
  | nil => cases hi
  | cons k l ih =>
    rw [List.foldl_cons]
    by_cases hc : s.crashed = true
    · have : givePrimary ps s k = s := by simp only [givePrimary, hc, if_true]
      rw [this, gp_stuck ps l hc]; exact hc
    · by_cases hk : k = i
      · subst hk
        have hn : ps[k]? = none := List.getElem?_eq_none hl
        have : givePrimary ps s k = { s with crashed := true } := by
          simp only [givePrimary, if_neg hc, hr, hp, hn]
        rw [this, gp_stuck ps l rfl]
      · have him : i ∈ l := by
          rcases List.mem_cons.1 hi with e | e
          · exact absurd e.symm hk
          · exact e
        refine ih him ?_
        rw [givePrimary, if_neg hc]
        cases hrk : s.replicas.get? k with
        | none => exact hr
        | some q =>
          cases hq : q.primary with
          | some _ => simp only [hq]; exact hr
          | none =>
            cases hpk : ps[k]? with
            | none => simp only [hq]; exact hr
            | some p => simp only [hq, Dict.get?_set, if_neg hk]; exact hr

/-! ## The parameters of the pool -/

theorem eraseDups_nodup (l : List Nat) (h : l.Nodup) : l.eraseDups = l := by
  induction l with
  | nil => rfl
  | cons a l ih =>
    rw [List.eraseDups_cons, List.filter_eq_self.2 ?_, ih (List.nodup_cons.1 h).2]
    intro x hx
    have : x ≠ a := fun e => (List.nodup_cons.1 h).1 (e ▸ hx)
    simp [this]

theorem wanted_eq (n : Nat) : getMaxFailures n + 1 = wanted n := by
  unfold getMaxFailures wanted
  split <;> omega

theorem select_some {reg : Dict Nat (List Node)} {active : List Node} (h : PoolOk reg active) (v : Nat) :
    ∃ ps, selectPrimaries reg active v = some ps ∧ ps.length = wanted active.length ∧
      ps.head? = selectMaster reg v ∧ ps.Nodup ∧ ∀ p ∈ ps.tail, p ∈ active := by
  obtain ⟨hd, hne, h0, hr⟩ := h
  obtain ⟨_, _, p, _, _, _, hp, _⟩ := Props.C23_registry_used reg v h0 hr
  have hl : 0 < active.length := List.length_pos_iff.2 hne
  obtain ⟨bs, h1, h2, h3, h4⟩ := Props.C23_backups_distinct v active hd ((active.length - 1) / 3) (by omega) p
  refine ⟨p :: bs, ?_, ?_, ?_, h3, h4⟩
  · simp [selectPrimaries, hp, h1]
  · simp [h2, wanted]
  · simp [hp]

/-- The state in which replicas are adjusted. -/
def adjusted (s : State) (active : List Node) : State :=
  adjustReplicas { s with required := wanted active.length } s.replicas.length (wanted active.length)

theorem params_eq {s : State} {reg : Dict Nat (List Node)} {active : List Node} (h : PoolOk reg active) (v : Nat)
    {ps : List Node} (hps : selectPrimaries reg active v = some ps) :
    setPoolParams s reg active v =
      if (adjusted s active).replicas.length ≠ ps.length then { adjusted s active with crashed := true }
      else (sortedIds (adjusted s active).replicas).foldl (givePrimary ps) (adjusted s active) := by
  simp only [setPoolParams, eraseDups_nodup active h.1, wanted_eq, hps, adjusted]
  rfl

end Verif.Insts
