import Verif.Spec.Leecher
/-! Invariants of the catchup of all ledgers. -/
namespace Verif.Leecher

open Verif.Audit (Own Till Txn tillOf tillLoop calcCatchupTill)
open Verif.Spec (visited lastStart plan HasRoot)

theorem visited_snoc (l : List Out) (o : Out) : visited (l ++ [o]) = (match o with
    | .started _ => []
    | .finished k => k :: visited l
    | _ => visited l) := by
  unfold visited
  rw [List.foldl_append]
  rfl

theorem lastStart_snoc (l : List Out) (o : Out) : lastStart (l ++ [o]) = (match o with
    | .started i => some i
    | _ => lastStart l) := by
  unfold lastStart
  rw [List.foldl_append]
  rfl

/-! ### Targets -/

theorem tillOf_start {audit : List Txn} {last : Txn} {own : Nat → Option Own} {lid final : Nat} {t : Till}
    (h : tillOf audit last own lid final = some (some t)) :
    t.final = final ∧ ∃ o, own lid = some o ∧ t.start = o.size := by
  unfold tillOf at h
  split at h
  · cases h
  · rename_i o ho
    split at h
    · split at h
      · cases h
      · cases h; exact ⟨rfl, o, ho, rfl⟩
    · cases h; exact ⟨rfl, o, ho, rfl⟩
    · split at h
      · cases h
      · split at h
        · cases h; exact ⟨rfl, o, ho, rfl⟩
        · cases h

theorem tillOf_skip {audit : List Txn} {last : Txn} {own : Nat → Option Own} {lid final : Nat}
    (h : tillOf audit last own lid final = some none) : own lid = none := by
  unfold tillOf at h
  split at h
  · assumption
  · split at h
    · split at h <;> cases h
    · cases h
    · split at h
      · cases h
      · split at h <;> cases h

theorem tillOf_none {audit : List Txn} {last : Txn} {own : Nat → Option Own} {lid final : Nat}
    (h : tillOf audit last own lid final = none) : ¬ HasRoot audit last lid := by
  rintro ⟨r, h1 | ⟨k, t, h1, h2, h3⟩⟩
  · unfold tillOf at h
    rw [h1] at h
    split at h <;> cases h
  · unfold tillOf at h
    rw [h1] at h
    simp only [h2, h3] at h
    split at h <;> cases h

theorem tillLoop_some {audit : List Txn} {last : Txn} {own : Nat → Option Own} :
    ∀ (es : Dict Nat Nat) (acc : Dict Nat Till),
    (∀ lid t, acc.get? lid = some t → ∃ o, own lid = some o ∧ t.start = o.size) →
    ∀ lid t, (tillLoop audit last own es acc).get? lid = some t → ∃ o, own lid = some o ∧ t.start = o.size
  | [], acc, h => h
  | (k, f) :: es, acc, h => by
    intro lid t ht
    unfold tillLoop at ht
    split at ht
    · cases ht
    · exact tillLoop_some es acc h lid t ht
    · rename_i x hx
      refine tillLoop_some es _ ?_ lid t ht
      intro lid' t' ht'
      rw [Dict.get?_set] at ht'
      split at ht'
      · rename_i e
        cases ht'
        subst e
        exact (tillOf_start hx).2
      · exact h lid' t' ht'

theorem tillLoop_all {audit : List Txn} {last : Txn} {own : Nat → Option Own} :
    ∀ (es : Dict Nat Nat) (acc : Dict Nat Till), (Dict.keys es).Nodup →
    (∃ lid n, (lid, n) ∈ es ∧ ¬ HasRoot audit last lid) ∨
    ((∀ lid n, (lid, n) ∈ es → (own lid).isSome → ∃ t, (tillLoop audit last own es acc).get? lid = some t ∧ t.final = n) ∧
      ∀ lid, lid ∉ Dict.keys es → (tillLoop audit last own es acc).get? lid = acc.get? lid)
  | [], acc, _ => .inr ⟨fun _ _ h => absurd h List.not_mem_nil, fun _ _ => rfl⟩
  | (k, f) :: es, acc, hn => by
    have hn' : k ∉ Dict.keys es ∧ (Dict.keys es).Nodup := List.nodup_cons.1 hn
    unfold tillLoop
    split
    · rename_i hx
      exact .inl ⟨k, f, List.mem_cons_self .., tillOf_none hx⟩
    · rename_i hx
      rcases tillLoop_all (audit := audit) (last := last) (own := own) es acc hn'.2 with ⟨lid, n, h1, h2⟩ | ⟨h1, h2⟩
      · exact .inl ⟨lid, n, List.mem_cons_of_mem _ h1, h2⟩
      · refine .inr ⟨?_, ?_⟩
        · intro lid n hm ho
          rcases List.mem_cons.1 hm with hm | hm
          · cases hm
            rw [tillOf_skip hx] at ho; cases ho
          · exact h1 lid n hm ho
        · intro lid hl
          exact h2 lid (fun hm => hl (List.mem_cons_of_mem _ hm))
    · rename_i x hx
      rcases tillLoop_all (audit := audit) (last := last) (own := own) es (acc.set k x) hn'.2 with ⟨lid, n, h1, h2⟩ | ⟨h1, h2⟩
      · exact .inl ⟨lid, n, List.mem_cons_of_mem _ h1, h2⟩
      · refine .inr ⟨?_, ?_⟩
        · intro lid n hm ho
          rcases List.mem_cons.1 hm with hm | hm
          · cases hm
            refine ⟨x, ?_, (tillOf_start hx).1⟩
            rw [h2 _ hn'.1, Dict.get?_set, if_pos rfl]
          · exact h1 lid n hm ho
        · intro lid hl
          have hne : ¬ k = lid := fun e => hl (by rw [← e]; exact List.mem_cons_self ..)
          rw [h2 lid (fun hm => hl (List.mem_cons_of_mem _ hm)), Dict.get?_set, if_neg hne]

/-- Every ledger the last audit transaction gives a size for has that size as its target, or
the transaction has no root for one of them. -/
def Targets (s : St) : Prop :=
  ∀ last, s.audit.getLast? = some last → (Dict.keys last.sizes).Nodup →
    (∃ lid n, (lid, n) ∈ last.sizes ∧ ¬ HasRoot s.audit last lid) ∨
    ∀ lid n, last.sizes.get? lid = some n → lid ∈ s.ids → lid ≠ AUDIT → ∃ t, s.till.get? lid = some t ∧ t.final = n

theorem calc_targets (audit : List Txn) (own : Nat → Option Own) (last : Txn) (hl : audit.getLast? = some last)
    (hn : (Dict.keys last.sizes).Nodup) :
    (∃ lid n, (lid, n) ∈ last.sizes ∧ ¬ HasRoot audit last lid) ∨ ∀ lid n, last.sizes.get? lid = some n → (own lid).isSome →
      ∃ t, (calcCatchupTill audit own).get? lid = some t ∧ t.final = n := by
  unfold calcCatchupTill
  rw [hl]
  rcases tillLoop_all (audit := audit) (last := last) (own := own) last.sizes [] hn with h | ⟨h, _⟩
  · exact .inl h
  · exact .inr fun lid n hm => h lid n (Dict.mem_of_get? hm)

theorem calc_start (audit : List Txn) (own : Nat → Option Own) (lid : Nat) (t : Till)
    (h : (calcCatchupTill audit own).get? lid = some t) : ∃ o, own lid = some o ∧ t.start = o.size := by
  unfold calcCatchupTill at h
  split at h
  · cases h
  · exact tillLoop_some _ _ (by intro _ _ h; cases h) _ _ h

theorem calc_empty (own : Nat → Option Own) : calcCatchupTill [] own = [] := rfl

/-! ### The other ledgers -/

theorem foldl_erase_nodup : ∀ (f l : List Nat), l.Nodup → (f.foldl (fun l k => l.erase k) l).Nodup
  | [], _, h => h
  | k :: f, l, h => foldl_erase_nodup f _ (h.erase k)

theorem mem_foldl_erase : ∀ (f l : List Nat), l.Nodup → ∀ x,
    x ∈ f.foldl (fun l k => l.erase k) l ↔ x ∈ l ∧ x ∉ f
  | [], l, _, x => by simp
  | k :: f, l, h, x => by
    rw [List.foldl_cons, mem_foldl_erase f _ (h.erase k) x, h.mem_erase_iff]
    simp only [List.mem_cons, not_or]
    constructor
    · rintro ⟨⟨h1, h2⟩, h3⟩; exact ⟨h2, h1, h3⟩
    · rintro ⟨h1, h2, h3⟩; exact ⟨⟨h2, h1⟩, h3⟩

/-- The four ledgers every node has are registered. -/
def Registered (ids : List Nat) : Prop := ids.Nodup ∧ AUDIT ∈ ids ∧ POOL ∈ ids ∧ CONFIG ∈ ids

theorem rest_some {s : St} (h : Registered s.ids) : ∃ l : List Nat, s.rest = some l ∧ l.Nodup ∧
    ∀ x, x ∈ l ↔ x ∈ s.ids ∧ x ≠ AUDIT ∧ x ≠ POOL ∧ x ≠ CONFIG ∧ x ∉ s.frozen := by
  have h0 := h.1
  have h1 := h0.erase AUDIT
  have h2 := h1.erase POOL
  have h3 := h2.erase CONFIG
  refine ⟨_, by unfold St.rest; rw [if_pos h.2], foldl_erase_nodup _ _ h3, ?_⟩
  intro x
  rw [mem_foldl_erase _ _ h3, h2.mem_erase_iff, h1.mem_erase_iff, h0.mem_erase_iff]
  constructor
  · rintro ⟨⟨a, b, c, d⟩, e⟩; exact ⟨d, c, b, a, e⟩
  · rintro ⟨d, c, b, a, e⟩; exact ⟨⟨a, b, c, d⟩, e⟩

/-! ### The invariant -/

/-- A ledger has reached its target. -/
def Reached (s : St) (lid : Nat) : Prop :=
  lid ≠ AUDIT → ∀ t, s.till.get? lid = some t → t.final ≤ s.size lid

/-- What the current state says about finished ledgers. -/
def doneList (s : St) : List Nat :=
  match s.phase with
  | .idle => []
  | .prePool => []
  | .audit => []
  | .pool => [AUDIT]
  | .config => [AUDIT, POOL]
  | .others => [AUDIT, POOL, CONFIG] ++
      (match s.rest, s.current with
       | some l, some c => l.take (l.idxOf c)
       | _, _ => [])

/-- The ledgers finished before the current one, in order. -/
def soFar (s : St) (i : Bool) : List Nat :=
  match s.phase with
  | .prePool => []
  | _ => (if i then [POOL] else []) ++ doneList s

def late : Phase → Prop
  | .pool | .config | .others => True
  | _ => False

/-- The log agrees with the state. -/
def Order (s : St) (p : List Nat) : Prop :=
  ∃ i, lastStart s.log = some i ∧ (s.phase = .prePool → i = true) ∧ (visited s.log).reverse = soFar s i ++ p

/-- What holds in every state, whatever the leechers do. -/
structure Core (s : St) : Prop where
  raised : s.raised = false
  ids : Registered s.ids
  own : ∀ lid ∈ s.ids, lid ≠ AUDIT → (s.own lid).isSome
  zpos : ∀ z, s.sizes.get? AUDIT = some z → ∀ e ∈ z, 0 < e.2
  cur : s.phase ≠ .others → s.current = none
  early : s.phase = .prePool ∨ s.phase = .audit → s.till = []
  late : late s.phase → Targets s ∧ (∀ lid t, lid ≠ AUDIT → s.till.get? lid = some t → t.start ≤ s.size lid) ∧
    (s.sizes.get? AUDIT).isSome ∧ (s.till ≠ [] → s.audit ≠ [])
  done : ∀ lid ∈ doneList s, Reached s lid

/-- The current ledger is one of the others. -/
def Oth (s : St) : Prop := s.phase = .others → ∃ l c, s.rest = some l ∧ s.current = some c ∧ c ∈ l

/-- What the leechers do. -/
structure Inv (s : St) : Prop extends Core s where
  oth : Oth s
  idle : s.phase = .idle → s.pending = none ∧ ∀ l, s.job l = .none
  busy : s.phase ≠ .idle → s.synced = false ∧ ∃ a, s.expected = some a ∧ (∀ l, l ≠ a → s.job l = .none) ∧
    (s.pending = some a ∧ s.job a = .none ∨ s.pending = none ∧ s.job a ≠ .none)
  fetch : ∀ lid n t, lid ≠ AUDIT → s.job lid = .fetching n → s.till.get? lid = some t → n = t.final
  decid : ∀ lid, s.job lid = .deciding → s.till.get? lid = none
  pend : ∀ a, s.pending = some a → Reached s a
  auditDone : s.phase = .audit → s.job AUDIT ≠ .deciding → (s.sizes.get? AUDIT).isSome
  order : s.phase ≠ .idle → Order s s.pending.toList

/-- Ready to start or to continue with ledger `a`. -/
structure Ready (s : St) (a : Nat) : Prop extends Core s where
  oth : Oth s
  active : s.phase ≠ .idle
  unsynced : s.synced = false
  expects : s.expected = some a
  free : s.pending = none
  others : ∀ l, l ≠ a → s.job l = .none
  order : Order s []

theorem expected_congr {s s' : St} (h1 : s'.phase = s.phase) (h2 : s'.current = s.current) :
    s'.expected = s.expected := by
  unfold St.expected; rw [h1, h2]

theorem rest_congr {s s' : St} (h1 : s'.ids = s.ids) (h2 : s'.frozen = s.frozen) : s'.rest = s.rest := by
  unfold St.rest; rw [h1, h2]

theorem doneList_congr {s s' : St} (h1 : s'.phase = s.phase) (h2 : s'.current = s.current)
    (h3 : s'.ids = s.ids) (h4 : s'.frozen = s.frozen) : doneList s' = doneList s := by
  unfold doneList; rw [h1, h2, rest_congr h3 h4]

theorem soFar_congr {s s' : St} (h1 : s'.phase = s.phase) (h2 : s'.current = s.current)
    (h3 : s'.ids = s.ids) (h4 : s'.frozen = s.frozen) (i : Bool) : soFar s' i = soFar s i := by
  unfold soFar; rw [h1, doneList_congr h1 h2 h3 h4]

theorem size_congr {s s' : St} (h1 : s'.audit = s.audit) (h2 : s'.own = s.own) (lid : Nat) :
    s'.size lid = s.size lid := by
  unfold St.size; rw [h1, h2]

/-- The fields the invariant does not look at may change, and so may the sizes of nodes. -/
theorem Core.frame {s s' : St} (h : Core s) (hr : s'.raised = s.raised) (hi : s'.ids = s.ids)
    (ho : s'.own = s.own) (ha : s'.audit = s.audit) (hf : s'.frozen = s.frozen) (hp : s'.phase = s.phase)
    (hc : s'.current = s.current) (ht : s'.till = s.till)
    (hz : ∀ z, s'.sizes.get? AUDIT = some z → ∀ e ∈ z, 0 < e.2)
    (hz2 : (s.sizes.get? AUDIT).isSome → (s'.sizes.get? AUDIT).isSome) : Core s' where
  raised := hr.trans h.raised
  ids := hi ▸ h.ids
  own := by rw [hi, ho]; exact h.own
  zpos := hz
  cur := by rw [hp, hc]; exact h.cur
  early := by rw [hp, ht]; exact h.early
  late := by
    rw [hp]
    intro hx
    obtain ⟨h1, h2, h3, h4⟩ := h.late hx
    refine ⟨?_, ?_, hz2 h3, ?_⟩
    · unfold Targets at h1 ⊢; rw [ht, ha, hi]; exact h1
    · intro lid t hne; rw [ht, size_congr ha ho]; exact h2 lid t hne
    · rw [ht, ha]; exact h4
  done := by
    rw [doneList_congr hp hc hi hf]
    intro lid hm
    have h2 := h.done lid hm
    unfold Reached at h2 ⊢
    rw [ht, size_congr ha ho]; exact h2

theorem Oth.frame {s s' : St} (h : Oth s) (hi : s'.ids = s.ids) (hf : s'.frozen = s.frozen)
    (hp : s'.phase = s.phase) (hc : s'.current = s.current) : Oth s' := by
  unfold Oth; rw [hp, hc, rest_congr hi hf]; exact h

theorem Order.frame {s s' : St} {p : List Nat} (h : Order s p) (hi : s'.ids = s.ids)
    (hf : s'.frozen = s.frozen) (hp : s'.phase = s.phase) (hc : s'.current = s.current)
    (hv : visited s'.log = visited s.log) (hl : lastStart s'.log = lastStart s.log) : Order s' p := by
  obtain ⟨i, h1, h2, h3⟩ := h
  exact ⟨i, by rw [hl, h1], by rw [hp]; exact h2, by rw [hv, h3, soFar_congr hp hc hi hf]⟩

/-- Finishing the ledger that is expected. -/
theorem Ready.finish {s : St} {a : Nat} (h : Ready s a) (n : Nat) (hd : Reached s a)
    (hz : s.phase = .audit → (s.sizes.get? AUDIT).isSome) : Inv (s.finish a n) := by
  have hv : visited (s.finish a n).log = a :: visited s.log := visited_snoc _ _
  have hl : lastStart (s.finish a n).log = lastStart s.log := lastStart_snoc _ _
  have hc : Core (s.finish a n) := h.toCore.frame rfl rfl rfl rfl rfl rfl rfl rfl h.zpos (fun h => h)
  have hnone : ∀ l, (s.finish a n).job l = .none := by
    intro l
    show (if l = a then Job.none else s.job l) = .none
    split
    · rfl
    · rename_i hne; exact h.others l hne
  refine { toCore := hc, oth := h.oth.frame rfl rfl rfl rfl, idle := ?_, busy := ?_, fetch := ?_,
           decid := ?_, pend := ?_, auditDone := ?_, order := ?_ }
  · intro hp; exact absurd hp h.active
  · intro _
    exact ⟨h.unsynced, a, (expected_congr rfl rfl).trans h.expects, fun l _ => hnone l, .inl ⟨rfl, hnone a⟩⟩
  · intro lid n t _ hj _
    rw [hnone] at hj; cases hj
  · intro lid hj
    rw [hnone] at hj; cases hj
  · intro b hb
    cases hb
    exact hd
  · intro hp _; exact hz hp
  · intro _
    obtain ⟨i, h1, h2, h3⟩ := h.order
    refine ⟨i, by rw [hl, h1], h2, ?_⟩
    rw [hv, List.reverse_cons, h3, List.append_nil]
    rfl

theorem Ready.setJob {s : St} {a : Nat} (h : Ready s a) (j : Job) (c : Dict Nat Nat) (hj : j ≠ .none)
    (hf : ∀ n t, a ≠ AUDIT → j = .fetching n → s.till.get? a = some t → n = t.final)
    (hd : j = .deciding → s.till.get? a = none)
    (hz : s.phase = .audit → j ≠ .deciding → (s.sizes.get? AUDIT).isSome) : Inv { s.setJob a j with caught := c } := by
  have hother : ∀ l, l ≠ a → (s.setJob a j).job l = .none := by
    intro l hl
    show (if l = a then j else s.job l) = .none
    rw [if_neg hl]; exact h.others l hl
  have hself : (s.setJob a j).job a = j := by
    show (if a = a then j else s.job a) = j
    rw [if_pos rfl]
  refine { toCore := h.toCore.frame rfl rfl rfl rfl rfl rfl rfl rfl h.zpos (fun h => h),
           oth := h.oth.frame rfl rfl rfl rfl, idle := ?_, busy := ?_, fetch := ?_,
           decid := ?_, pend := ?_, auditDone := ?_, order := ?_ }
  · intro hp; exact absurd hp h.active
  · intro _
    refine ⟨h.unsynced, a, (expected_congr rfl rfl).trans h.expects, hother, .inr ⟨h.free, ?_⟩⟩
    show (s.setJob a j).job a ≠ .none
    rw [hself]; exact hj
  · intro lid n t hne hjl ht
    have hjl : (s.setJob a j).job lid = .fetching n := hjl
    by_cases e : lid = a
    · subst e
      rw [hself] at hjl
      exact hf n t hne hjl ht
    · rw [hother lid e] at hjl; cases hjl
  · intro lid hjl
    have hjl : (s.setJob a j).job lid = .deciding := hjl
    by_cases e : lid = a
    · subst e
      rw [hself] at hjl
      exact hd hjl
    · rw [hother lid e] at hjl; cases hjl
  · intro b hb
    have hb : s.pending = some b := hb
    rw [h.free] at hb; cases hb
  · intro hp hb
    have he := h.expects
    have hp : s.phase = .audit := hp
    unfold St.expected at he
    rw [hp] at he
    cases he
    refine hz hp (fun e => hb ?_)
    show (s.setJob AUDIT j).job AUDIT = .deciding
    rw [hself, e]
  · intro _
    show Order _ (s.pending.toList)
    rw [h.free]
    exact h.order.frame rfl rfl rfl rfl rfl rfl

theorem Ready.begin {s : St} {a : Nat} (h : Ready s a) (tl : Option Till) (z : Dict Name Nat)
    (hz : a = AUDIT → ∀ e ∈ z, 0 < e.2)
    (ht : a ≠ AUDIT → ∀ t, s.till.get? a = some t → tl = some t ∨ tl = none ∧ t.final ≤ s.size a) :
    Inv (s.begin a tl z) := by
  have hs : ∀ z', (s.sizes.set a z).get? AUDIT = some z' → ∀ e ∈ z', 0 < e.2 := by
    intro z' hz'
    rw [Dict.get?_set] at hz'
    split at hz'
    · rename_i e; cases hz'; exact hz e
    · exact h.zpos z' hz'
  have hs2 : (s.sizes.get? AUDIT).isSome → ((s.sizes.set a z).get? AUDIT).isSome := by
    intro hx
    rw [Dict.get?_set]
    split
    · rfl
    · exact hx
  let s1 : St := { s with sizes := s.sizes.set a z, log := s.log ++ [Out.begun a tl] }
  have h1 : Ready s1 a :=
    { toCore := h.toCore.frame rfl rfl rfl rfl rfl rfl rfl rfl hs hs2
      oth := h.oth.frame rfl rfl rfl rfl
      active := h.active, unsynced := h.unsynced, expects := (expected_congr rfl rfl).trans h.expects
      free := h.free, others := h.others
      order := h.order.frame rfl rfl rfl rfl (visited_snoc _ _) (lastStart_snoc _ _) }
  have haud : s1.phase = .audit → (s1.sizes.get? AUDIT).isSome := by
    intro hp
    have he := h.expects
    unfold St.expected at he
    have hp : s.phase = .audit := hp
    rw [hp] at he
    cases he
    show ((s.sizes.set AUDIT z).get? AUDIT).isSome = true
    rw [Dict.get?_set, if_pos rfl]; rfl
  rcases htl : tl with _ | t
  · have e : s.begin a none z = s1.finish a 0 := by
      unfold St.begin; simp only [s1, htl]
    rw [e]
    refine h1.finish 0 ?_ haud
    intro hne t hx
    rcases ht hne t hx with h2 | h2
    · rw [htl] at h2; cases h2
    · exact h2.2
  · have e : s.begin a (some t) z =
        if t.final ≤ s1.size a then s1.finish a (t.final - t.start) else s1.setJob a (.fetching t.final) := by
      unfold St.begin; simp only [s1, htl]
    rw [e]
    split
    · rename_i hle
      refine h1.finish _ ?_ haud
      intro hne t' hx
      rcases ht hne t' hx with h2 | h2
      · rw [htl] at h2; cases h2; exact hle
      · exact h2.2
    · refine h1.setJob (.fetching t.final) s1.caught (by intro h; cases h) ?_ (by intro h; cases h) (fun hp _ => haud hp)
      intro n t' hne hj hx
      cases hj
      rcases ht hne t' hx with h2 | h2
      · rw [htl] at h2; cases h2; rfl
      · rw [htl] at h2; cases h2.1

theorem calcSizes_some {s : St} (h : Core s) (hl : Leecher.late s.phase) (ht : s.till ≠ []) (lid : Nat) :
    ∃ z, s.calcSizes lid = some z := by
  obtain ⟨_, _, h3, h4⟩ := h.late hl
  obtain ⟨z, hz⟩ := Option.isSome_iff_exists.1 h3
  unfold St.calcSizes
  cases hs : s.sizes.get? lid with
  | some z => exact ⟨z, rfl⟩
  | none =>
    simp only [hz]
    have hpos := h.zpos z hz
    clear hz hs
    induction z with
    | nil => exact ⟨[], rfl⟩
    | cons e z ih =>
      obtain ⟨r, hr⟩ := ih (fun e he => hpos e (List.mem_cons_of_mem _ he))
      have hlen : 0 < s.audit.length := List.length_pos_iff.2 (h4 ht)
      have he := hpos e (List.mem_cons_self ..)
      have hm : ¬ min e.2 s.audit.length = 0 := by omega
      have hlt : min e.2 s.audit.length - 1 < s.audit.length := by omega
      refine ⟨(e.1, ((s.audit[min e.2 s.audit.length - 1]).sizes.get? lid).getD 0) :: r, ?_⟩
      rw [List.mapM_cons, if_neg hm, List.getElem?_eq_getElem hlt, hr]
      rfl

theorem Ready.leech {s : St} {a : Nat} (h : Ready s a) (ha : a = AUDIT → s.till = []) : Inv (s.leech a) := by
  unfold St.leech
  cases ht : s.till.get? a with
  | none => exact h.setJob .deciding _ (by intro h; cases h) (by intro _ _ _ h; cases h) (fun _ => ht) (fun _ h => absurd rfl h)
  | some t =>
    have hne : s.till ≠ [] := by intro e; rw [e] at ht; cases ht
    have hau : a ≠ AUDIT := fun e => hne (ha e)
    have hla : Leecher.late s.phase := by
      cases hp : s.phase with
      | idle => exact absurd hp h.active
      | prePool => exact absurd (h.early (.inl hp)) hne
      | audit => exact absurd (h.early (.inr hp)) hne
      | pool => trivial
      | config => trivial
      | others => trivial
    obtain ⟨z, hz⟩ := calcSizes_some h.toCore hla hne a
    simp only [hz]
    refine h.begin _ z (fun e => absurd e hau) ?_
    intro _ t' ht'
    rw [ht] at ht'
    cases ht'
    have hst := (h.late hla).2.1 a t hau ht
    split
    · rename_i e; exact .inr ⟨rfl, by omega⟩
    · exact .inl rfl

/-! ### Starting -/

theorem Inv.doStart {s : St} (h : Inv s) (hp : s.phase = .idle) (i : Bool) : Inv (s.doStart i) := by
  have hc : s.current = none := h.cur (by rw [hp]; intro e; cases e)
  obtain ⟨hn, hj⟩ := h.idle hp
  unfold St.doStart St.enter
  cases i with
  | true =>
    rw [if_pos rfl]
    refine Ready.leech (a := POOL) ?_ (fun e => by first | rfl | exact absurd e (by decide))
    refine { raised := h.raised, ids := h.ids, own := h.own, zpos := ?_, cur := fun _ => hc, early := fun _ => rfl,
             late := ?_, done := ?_, oth := ?_, active := ?_, unsynced := rfl, expects := rfl, free := hn,
             others := fun l _ => hj l, order := ?_ }
    · intro z hz; cases hz
    · intro h; exact absurd h id
    · intro lid hl; exact absurd hl List.not_mem_nil
    · intro h; cases h
    · intro h; cases h
    · exact ⟨true, lastStart_snoc _ _, fun _ => rfl, by
        show (visited (s.log ++ [Out.started true])).reverse = []
        rw [visited_snoc]; rfl⟩
  | false =>
    rw [if_neg (by intro h; cases h)]
    refine Ready.leech (a := AUDIT) ?_ (fun e => by first | rfl | exact absurd e (by decide))
    refine { raised := h.raised, ids := h.ids, own := h.own, zpos := ?_, cur := fun _ => hc, early := fun _ => rfl,
             late := ?_, done := ?_, oth := ?_, active := ?_, unsynced := rfl, expects := rfl, free := hn,
             others := fun l _ => hj l, order := ?_ }
    · intro z hz; cases hz
    · intro h; exact absurd h id
    · intro lid hl; exact absurd hl List.not_mem_nil
    · intro h; cases h
    · intro h; cases h
    · exact ⟨false, lastStart_snoc _ _, (by intro h; cases h), by
        show (visited (s.log ++ [Out.started false])).reverse = []
        rw [visited_snoc]; rfl⟩

theorem Inv.start {s : St} (h : Inv s) (i : Bool) (ha : i = true → s.phase = .idle) : Inv (s.start i) := by
  unfold St.start
  split
  · exact h
  · rename_i hc
    refine h.doStart ?_ i
    cases i with
    | true => exact ha rfl
    | false =>
      apply Classical.byContradiction
      intro hp
      have := (h.busy hp).1
      rw [this] at hc
      exact hc ⟨by simp, by simp⟩

/-- An idle service without anything to do. -/
theorem Inv.ofIdle {s : St} (h : Core s) (hp : s.phase = .idle) (hn : s.pending = none)
    (hj : ∀ l, s.job l = .none) : Inv s :=
  { toCore := h
    oth := by intro e; rw [hp] at e; cases e
    idle := fun _ => ⟨hn, hj⟩
    busy := fun e => absurd hp e
    fetch := by intro lid n t _ h2; rw [hj] at h2; cases h2
    decid := by intro lid h2; rw [hj] at h2; cases h2
    pend := by intro a h2; rw [hn] at h2; cases h2
    auditDone := by intro e; rw [hp] at e; cases e
    order := fun e => absurd hp e }

theorem Inv.allCaughtUp {s : St} (h : Core s) (hp : s.phase = .idle) (hn : s.pending = none)
    (hj : ∀ l, s.job l = .none) : Inv s.allCaughtUp := by
  have h1 : Inv { s with synced := true, log := s.log ++ [Out.complete] } :=
    Inv.ofIdle (h.frame rfl rfl rfl rfl rfl rfl rfl rfl h.zpos (fun h => h)) hp hn hj
  unfold St.allCaughtUp
  simp only
  split
  · exact h1.start false (by intro h; cases h)
  · exact h1

/-! ### The next ledger -/

theorem nextIn_some {l : List Nat} {c n : Nat} (hl : l.Nodup) (h : nextIn l (some c) = some (some n)) :
    n ∈ l ∧ l.take (l.idxOf n) = l.take (l.idxOf c) ++ [c] := by
  unfold nextIn at h
  split at h
  · cases h
  · simp only at h
    split at h
    · rename_i hc
      have h : l[l.idxOf c + 1]? = some n := Option.some.inj h
      obtain ⟨hlt, he⟩ := List.getElem?_eq_some_iff.1 h
      have hidx : l.idxOf n = l.idxOf c + 1 := by rw [← he]; exact hl.idxOf_getElem _ hlt
      refine ⟨List.mem_of_getElem? h, ?_⟩
      rw [hidx, List.take_add_one, List.getElem?_eq_getElem (List.idxOf_lt_length_of_mem hc),
        List.getElem_idxOf]
      rfl
    · cases h

theorem nextIn_none {l : List Nat} {c : Nat} (hc : c ∈ l) (h : nextIn l (some c) = some none) :
    l = l.take (l.idxOf c) ++ [c] := by
  have hlt := List.idxOf_lt_length_of_mem hc
  unfold nextIn at h
  rw [if_neg (by omega)] at h
  simp only [if_pos hc] at h
  have h : l[l.idxOf c + 1]? = none := Option.some.inj h
  have hge := List.getElem?_eq_none_iff.1 h
  have : l.idxOf c + 1 = l.length := by omega
  have h2 : l.take (l.idxOf c + 1) = l := by rw [this, List.take_length]
  rw [List.take_add_one, List.getElem?_eq_getElem hlt, List.getElem_idxOf] at h2
  exact h2.symm

/-- Where `_sync_next_ledger` is called: all ledgers up to the current one are finished. -/
structure Step (s : St) (l : List Nat) : Prop extends Core s where
  phase : s.phase = .others
  rest : s.rest = some l
  unsynced : s.synced = false
  free : s.pending = none
  jobs : ∀ k, s.job k = .none
  here : s.current = none ∨ ∃ c, s.current = some c ∧ c ∈ l ∧ Reached s c
  order : ∃ i, lastStart s.log = some i ∧ (visited s.log).reverse = soFar s i ++ s.current.toList

theorem doneList_others {s : St} (hp : s.phase = .others) {l : List Nat} (hr : s.rest = some l) :
    doneList s = [AUDIT, POOL, CONFIG] ++ (match s.current with
      | some c => l.take (l.idxOf c)
      | none => []) := by
  unfold doneList
  rw [hp, hr]
  cases s.current <;> rfl

theorem soFar_others {s : St} (hp : s.phase = .others) (i : Bool) :
    soFar s i = (if i then [POOL] else []) ++ doneList s := by
  unfold soFar; rw [hp]

theorem Step.next {s : St} {l : List Nat} (h : Step s l) : ∃ n, nextIn l s.current = some n := by
  unfold nextIn
  split
  · exact ⟨_, rfl⟩
  · rcases h.here with hc | ⟨c, hc, hm, _⟩
    · rw [hc]; exact ⟨_, rfl⟩
    · rw [hc]; simp only [if_pos hm]; exact ⟨_, rfl⟩

/-- With the current ledger finished, the finished ones are those before the next one. -/
theorem Step.sofar {s : St} {l : List Nat} (h : Step s l) {n : Nat} (hn : nextIn l s.current = some (some n)) :
    n ∈ l ∧ doneList { s with current := some n } = doneList s ++ s.current.toList := by
  obtain ⟨l', hl', hnd, _⟩ := rest_some h.ids
  rw [h.rest] at hl'
  cases hl'
  rw [doneList_others (s := { s with current := some n }) h.phase ((rest_congr rfl rfl).trans h.rest),
    doneList_others h.phase h.rest]
  rcases h.here with hc | ⟨c, hc, hm, _⟩
  · rw [hc] at hn ⊢
    unfold nextIn at hn
    split at hn
    · cases hn
    · have hn : l[0]? = some n := Option.some.inj hn
      cases l with
      | nil => cases hn
      | cons x l =>
        cases hn
        refine ⟨List.mem_cons_self .., ?_⟩
        simp
  · rw [hc] at hn ⊢
    obtain ⟨h1, h2⟩ := nextIn_some hnd hn
    refine ⟨h1, ?_⟩
    simp only [h2]
    rfl

theorem Step.all {s : St} {l : List Nat} (h : Step s l) (hn : nextIn l s.current = some none) :
    doneList s ++ s.current.toList = [AUDIT, POOL, CONFIG] ++ l := by
  rw [doneList_others h.phase h.rest]
  rcases h.here with hc | ⟨c, hc, hm, _⟩
  · rw [hc] at hn ⊢
    unfold nextIn at hn
    split at hn
    · rename_i hz
      rw [List.length_eq_zero_iff.1 hz]; rfl
    · have hn : l[0]? = none := Option.some.inj hn
      cases l with
      | nil => rfl
      | cons x l => cases hn
  · rw [hc] at hn ⊢
    have := nextIn_none hm hn
    simp only
    show [AUDIT, POOL, CONFIG] ++ l.take (l.idxOf c) ++ [c] = _
    rw [List.append_assoc, ← this]

theorem Step.reached {s : St} {l : List Nat} (h : Step s l) : ∀ x ∈ doneList s ++ s.current.toList, Reached s x := by
  intro x hx
  rcases List.mem_append.1 hx with hx | hx
  · exact h.done x hx
  · rcases h.here with hc | ⟨c, hc, hm, hd⟩
    · rw [hc] at hx; cases hx
    · rw [hc] at hx
      rw [List.mem_singleton.1 hx]; exact hd

theorem Step.syncNext {s : St} {l : List Nat} (h : Step s l) : Inv s.syncNext := by
  obtain ⟨n, hn⟩ := h.next
  have hall := h.reached
  unfold St.syncNext
  rw [h.rest]
  simp only [hn]
  cases n with
  | none =>
    refine Inv.allCaughtUp ?_ rfl h.free h.jobs
    exact { raised := h.raised, ids := h.ids, own := h.own, zpos := h.zpos, cur := fun _ => rfl,
            early := by intro e; rcases e with e | e <;> cases e
            late := fun e => absurd e id
            done := fun lid hl => absurd hl List.not_mem_nil }
  | some n =>
    obtain ⟨hm, hdl⟩ := h.sofar hn
    have hla : Leecher.late s.phase := by rw [h.phase]; trivial
    have hna : n ≠ AUDIT := by
      obtain ⟨l', hl', _, hmem⟩ := rest_some h.ids
      rw [h.rest] at hl'; cases hl'
      exact ((hmem n).1 hm).2.1
    refine Ready.leech (a := n) ?_ (fun e => absurd e hna)
    refine { raised := h.raised, ids := h.ids, own := h.own, zpos := h.zpos, cur := fun e => absurd h.phase e,
             early := ?_, late := h.late, done := ?_, oth := ?_, active := ?_, unsynced := h.unsynced,
             expects := ?_, free := h.free, others := fun l _ => h.jobs l, order := ?_ }
    · intro e; exact h.early e
    · rw [hdl]; exact hall
    · intro _; exact ⟨l, n, (rest_congr rfl rfl).trans h.rest, rfl, hm⟩
    · show s.phase ≠ .idle
      rw [h.phase]; intro e; cases e
    · show (St.expected { s with current := some n }) = some n
      unfold St.expected
      simp only [h.phase]
    · obtain ⟨i, h1, h2⟩ := h.order
      refine ⟨i, h1, ?_, ?_⟩
      · intro e
        have e : s.phase = .prePool := e
        rw [h.phase] at e; cases e
      · show (visited s.log).reverse = _
        rw [h2, soFar_others h.phase, soFar_others (s := { s with current := some n }) h.phase, hdl,
          List.append_nil, List.append_assoc]

/-! ### A finished ledger -/

/-- The state in which `_on_ledger_catchup_complete` is called. -/
theorem Inv.settled {s : St} (h : Inv s) {a : Nat} (hp : s.pending = some a) :
    s.phase ≠ .idle ∧ s.synced = false ∧ s.expected = some a ∧ (∀ l, s.job l = .none) := by
  have hne : s.phase ≠ .idle := by
    intro e
    rw [(h.idle e).1] at hp; cases hp
  obtain ⟨h1, b, h2, h3, h4⟩ := h.busy hne
  rcases h4 with ⟨h4, h5⟩ | ⟨h4, _⟩
  · rw [hp] at h4; cases h4
    refine ⟨hne, h1, h2, fun l => ?_⟩
    by_cases e : l = a
    · rw [e]; exact h5
    · exact h3 l e
  · rw [hp] at h4; cases h4

/-- The call to `_sync_next_ledger` after config or another ledger. -/
theorem Inv.toStep {s : St} (h : Inv s) {a : Nat} (hp : s.pending = some a)
    (hph : s.phase = .config ∨ s.phase = .others) :
    ∃ l, Step { s with pending := none, phase := .others } l := by
  obtain ⟨hne, hs, he, hj⟩ := h.settled hp
  obtain ⟨l, hr, _, _⟩ := rest_some h.ids
  have hla : Leecher.late s.phase := by rcases hph with e | e <;> rw [e] <;> trivial
  obtain ⟨i, o1, o2, o3⟩ := h.order hne
  rw [hp] at o3
  have hr' : St.rest { s with pending := none, phase := .others } = some l := (rest_congr rfl rfl).trans hr
  have hpa := h.pend a hp
  have hearly : Phase.others = .prePool ∨ Phase.others = .audit → s.till = [] := by
    intro e; rcases e with e | e <;> cases e
  have hd := doneList_others (s := { s with pending := none, phase := .others }) rfl hr'
  rcases hph with e | e
  · have hc := h.cur (by rw [e]; intro h; cases h)
    have ha : a = CONFIG := by unfold St.expected at he; rw [e] at he; cases he; rfl
    have hd' : doneList { s with pending := none, phase := .others } = doneList s ++ [a] := by
      rw [hd]
      show [AUDIT, POOL, CONFIG] ++ (match s.current with
      | some c => l.take (l.idxOf c)
      | none => []) = _
      rw [hc, ha]; unfold doneList; rw [e]; rfl
    refine ⟨l, ?_⟩
    refine { raised := h.raised, ids := h.ids, own := h.own, zpos := h.zpos, cur := fun e => absurd rfl e,
             early := hearly, late := fun _ => h.late hla, done := ?_, phase := rfl, rest := hr', unsynced := hs, free := rfl,
             jobs := hj, here := .inl hc, order := ⟨i, o1, ?_⟩ }
    · rw [hd']
      intro x hx
      rcases List.mem_append.1 hx with hx | hx
      · exact h.done x hx
      · rw [List.mem_singleton.1 hx]; exact hpa
    · show (visited s.log).reverse = _ ++ s.current.toList
      rw [o3, soFar_others (s := { s with pending := none, phase := .others }) rfl, hd', hc]
      unfold soFar
      rw [e]
      simp
  · obtain ⟨l', c, hr2, hc, hm⟩ := h.oth e
    rw [hr] at hr2; cases hr2
    have ha : a = c := by unfold St.expected at he; rw [e, hc] at he; cases he; rfl
    have hd' : doneList { s with pending := none, phase := .others } = doneList s :=
      doneList_congr e.symm rfl rfl rfl
    refine ⟨l, ?_⟩
    refine { raised := h.raised, ids := h.ids, own := h.own, zpos := h.zpos, cur := fun e => absurd rfl e,
             early := hearly, late := fun _ => h.late hla, done := hd'.symm ▸ h.done, phase := rfl, rest := hr',
             unsynced := hs, free := rfl,
             jobs := hj, here := .inr ⟨c, hc, hm, ha ▸ hpa⟩, order := ⟨i, o1, ?_⟩ }
    show (visited s.log).reverse = _ ++ s.current.toList
    rw [o3, soFar_others (s := { s with pending := none, phase := .others }) rfl, hd', hc, soFar_others e, ha]

theorem Inv.settle {s : St} (h : Inv s) {a : Nat} (hp : s.pending = some a) :
    Inv ({ s with pending := none }.onComplete a) := by
  obtain ⟨hne, hs, he, hj⟩ := h.settled hp
  have he' : St.expected { s with pending := none } = some a := (expected_congr rfl rfl).trans he
  obtain ⟨i, o1, o2, o3⟩ := h.order hne
  rw [hp] at o3
  have hpa := h.pend a hp
  unfold St.onComplete
  rw [if_neg (fun hx => hx he')]
  unfold St.expected at he
  cases e : s.phase with
  | idle => exact absurd e hne
  | prePool =>
    rw [e] at he; cases he
    have hi := o2 e
    subst hi
    have hc := h.cur (by rw [e]; intro h; cases h)
    refine Ready.leech (a := AUDIT) ?_ (fun _ => h.early (.inl e))
    refine { raised := h.raised, ids := h.ids, own := h.own, zpos := h.zpos, cur := fun _ => hc,
             early := fun _ => h.early (.inl e), late := fun hx => absurd hx id
             done := fun lid hl => absurd hl List.not_mem_nil, oth := ?_, active := ?_, unsynced := hs,
             expects := rfl, free := rfl, others := fun l _ => hj l, order := ⟨true, o1, fun _ => rfl, ?_⟩ }
    · intro h; cases h
    · intro h; cases h
    · show (visited s.log).reverse = _
      rw [o3]
      unfold soFar
      rw [e]
      rfl
  | audit =>
    rw [e] at he; cases he
    have hc := h.cur (by rw [e]; intro h; cases h)
    refine Ready.leech (a := POOL) ?_ (fun e => absurd e (by decide))
    refine { raised := h.raised, ids := h.ids, own := h.own, zpos := h.zpos, cur := fun _ => hc,
             early := ?_, late := fun _ => ⟨?_, ?_, ?_, ?_⟩
             done := ?_, oth := ?_, active := ?_, unsynced := hs,
             expects := rfl, free := rfl, others := fun l _ => hj l, order := ⟨i, o1, ?_, ?_⟩ }
    · intro hx; rcases hx with hx | hx <;> cases hx
    · intro last hl hn
      rcases calc_targets s.audit s.own last hl hn with hx | hx
      · exact .inl hx
      · exact .inr fun lid n hg hi hna => hx lid n hg (h.own lid hi hna)
    · intro lid t hna ht
      obtain ⟨o, ho, hst⟩ := calc_start _ _ _ _ ht
      show t.start ≤ (if lid = AUDIT then s.audit.length else ((s.own lid).map (·.size)).getD 0)
      rw [if_neg hna, ho, hst]
      exact Nat.le_refl _
    · exact h.auditDone e (by rw [hj]; intro h; cases h)
    · intro hx hy
      have hy : s.audit = [] := hy
      apply hx
      show calcCatchupTill s.audit s.own = []
      rw [hy]; rfl
    · intro lid hl
      have hl : lid ∈ [AUDIT] := hl
      rw [List.mem_singleton.1 hl]
      intro hx; exact absurd rfl hx
    · intro h; cases h
    · intro h; cases h
    · intro h; cases h
    · show (visited s.log).reverse = _
      rw [o3]
      unfold soFar
      rw [e]
      show _ = _ ++ [AUDIT] ++ []
      unfold doneList
      rw [e]
      simp
  | pool =>
    rw [e] at he; cases he
    have hc := h.cur (by rw [e]; intro h; cases h)
    refine Ready.leech (a := CONFIG) ?_ (fun e => absurd e (by decide))
    refine { raised := h.raised, ids := h.ids, own := h.own, zpos := h.zpos, cur := fun _ => hc,
             early := ?_, late := fun _ => h.late (by rw [e]; trivial)
             done := ?_, oth := ?_, active := ?_, unsynced := hs,
             expects := rfl, free := rfl, others := fun l _ => hj l, order := ⟨i, o1, ?_, ?_⟩ }
    · intro hx; rcases hx with hx | hx <;> cases hx
    · intro lid hl
      have hl : lid ∈ [AUDIT, POOL] := hl
      rcases List.mem_cons.1 hl with hl | hl
      · rw [hl]
        intro hx; exact absurd rfl hx
      · rw [List.mem_singleton.1 hl]; exact hpa
    · intro h; cases h
    · intro h; cases h
    · intro h; cases h
    · show (visited s.log).reverse = _
      rw [o3]
      unfold soFar
      rw [e]
      show _ = _ ++ [AUDIT, POOL] ++ []
      unfold doneList
      rw [e]
      simp
  | config =>
    obtain ⟨l, hl⟩ := h.toStep hp (.inl e)
    exact hl.syncNext
  | others =>
    obtain ⟨l, hl⟩ := h.toStep hp (.inr e)
    exact hl.syncNext

/-! ### Events -/

/-- What may happen: a node is started when no catchup runs; the sizes nodes report for the
audit ledger are positive; a reply does not make a ledger shorter; a registered ledger stays. -/
def Allowed (s : St) : Ev → Prop
  | .start i => i = true → s.phase = .idle
  | .settle => True
  | .decided _ _ z => ∀ e ∈ z, 0 < e.2
  | .reply lid o _ => s.size lid ≤ o.size
  | .replyAudit _ => True
  | .ordered _ own _ => ∀ lid ∈ s.ids, lid ≠ AUDIT → (own lid).isSome

def AllAllowed (s : St) : List Ev → Prop
  | [] => True
  | e :: l => Allowed s e ∧ AllAllowed (s.step e) l

/-- A job makes its ledger the expected one. -/
theorem Inv.ofJob {s : St} (h : Inv s) {a : Nat} (hj : s.job a ≠ .none) :
    s.phase ≠ .idle ∧ s.synced = false ∧ s.expected = some a ∧ s.pending = none ∧ ∀ l, l ≠ a → s.job l = .none := by
  have hne : s.phase ≠ .idle := fun e => hj ((h.idle e).2 a)
  obtain ⟨h1, b, h2, h3, h4⟩ := h.busy hne
  have : a = b := Classical.byContradiction fun e => hj (h3 a e)
  subst this
  rcases h4 with ⟨_, h4⟩ | ⟨h4, _⟩
  · exact absurd h4 hj
  · exact ⟨hne, h1, h2, h4, h3⟩

theorem Inv.ready {s : St} (h : Inv s) {a : Nat} (hj : s.job a ≠ .none) : Ready s a := by
  obtain ⟨h1, h2, h3, h4, h5⟩ := h.ofJob hj
  have ho := h.order h1
  rw [h4] at ho
  exact { toCore := h.toCore, oth := h.oth, active := h1, unsynced := h2, expects := h3, free := h4,
          others := h5, order := ho }

/-- A reply that leaves the target out of reach. -/
theorem Ready.waiting {s : St} {a n : Nat} (h : Ready s a) (hj : s.job a = .fetching n)
    (hf : ∀ t, a ≠ AUDIT → s.till.get? a = some t → n = t.final)
    (hz : s.phase = .audit → (s.sizes.get? AUDIT).isSome) : Inv s := by
  refine { toCore := h.toCore, oth := h.oth, idle := fun e => absurd e h.active
           busy := fun _ => ⟨h.unsynced, a, h.expects, h.others, .inr ⟨h.free, by rw [hj]; intro h; cases h⟩⟩
           fetch := ?_, decid := ?_, pend := ?_, auditDone := ?_, order := ?_ }
  · intro lid m t hne hm ht
    by_cases e : lid = a
    · subst e
      rw [hj] at hm; cases hm
      exact hf t hne ht
    · rw [h.others lid e] at hm; cases hm
  · intro lid hm
    by_cases e : lid = a
    · rw [e, hj] at hm; cases hm
    · rw [h.others lid e] at hm; cases hm
  · intro b hb; rw [h.free] at hb; cases hb
  · intro hp _; exact hz hp
  · intro _; rw [h.free]; exact h.order

theorem Ready.replied {s : St} {a n : Nat} (h : Ready s a) (hj : s.job a = .fetching n)
    (hf : ∀ t, a ≠ AUDIT → s.till.get? a = some t → n = t.final)
    (hz : s.phase = .audit → (s.sizes.get? AUDIT).isSome) : Inv (s.replied a) := by
  unfold St.replied
  rw [hj]
  simp only
  split
  · rename_i hle
    refine h.finish n ?_ hz
    intro hne t ht
    rw [← hf t hne ht]; exact hle
  · exact h.waiting hj hf hz

/-- The phase in which a ledger is expected. -/
theorem Ready.phaseOf {s : St} {a : Nat} (h : Ready s a) :
    (a = AUDIT → s.phase = .audit) ∧ (s.phase = .others → a ≠ CONFIG) := by
  have he := h.expects
  unfold St.expected at he
  refine ⟨?_, ?_⟩
  · intro e
    subst e
    cases hp : s.phase with
    | idle => exact absurd hp h.active
    | prePool => rw [hp] at he; cases he
    | audit => rfl
    | pool => rw [hp] at he; cases he
    | config => rw [hp] at he; cases he
    | others =>
      obtain ⟨l, c, h1, h2, h3⟩ := h.oth hp
      rw [hp, h2] at he
      cases he
      obtain ⟨l', h4, _, h5⟩ := rest_some h.ids
      rw [h1] at h4; cases h4
      exact absurd rfl ((h5 AUDIT).1 h3).2.1
  · intro hp e
    subst e
    obtain ⟨l, c, h1, h2, h3⟩ := h.oth hp
    rw [hp, h2] at he
    cases he
    obtain ⟨l', h4, _, h5⟩ := rest_some h.ids
    rw [h1] at h4; cases h4
    exact ((h5 CONFIG).1 h3).2.2.2.1 rfl

theorem doneList_early {s s' : St} (h1 : s'.phase = s.phase) (h2 : s.phase ≠ .others) :
    doneList s' = doneList s := by
  unfold doneList
  rw [h1]
  cases hp : s.phase <;> first | rfl | exact absurd hp h2

/-- Growing ledgers keep what has been reached. -/
theorem Ready.grow {s : St} {a : Nat} (h : Ready s a) (ha : a ≠ AUDIT) (o : Own) (hs : s.size a ≤ o.size)
    (fz : List Nat) :
    Ready { s with own := fun k => if k = a then some o else s.own k
                   frozen := if a = CONFIG then fz else s.frozen } a := by
  have hfr : s.phase = .others → (if a = CONFIG then fz else s.frozen) = s.frozen :=
    fun hp => if_neg (h.phaseOf.2 hp)
  generalize (if a = CONFIG then fz else s.frozen) = f at hfr
  have hsz : ∀ lid, lid ≠ AUDIT → s.size lid ≤ St.size { s with own := fun k => if k = a then some o else s.own k, frozen := f } lid := by
    intro lid hl
    by_cases e : lid = a
    · subst e
      refine Nat.le_trans hs ?_
      unfold St.size
      simp [hl]
    · unfold St.size
      simp [hl, e]
  have hdl : doneList { s with own := fun k => if k = a then some o else s.own k, frozen := f } = doneList s := by
    by_cases hp : s.phase = .others
    · exact doneList_congr rfl rfl rfl (hfr hp)
    · exact doneList_early rfl hp
  refine { raised := h.raised, ids := h.ids, own := ?_, zpos := h.zpos, cur := h.cur, early := h.early,
           late := ?_, done := ?_, oth := ?_, active := h.active, unsynced := h.unsynced,
           expects := (expected_congr rfl rfl).trans h.expects, free := h.free, others := h.others, order := ?_ }
  · intro lid hl hne
    show (if lid = a then some o else s.own lid).isSome = true
    split
    · rfl
    · exact h.own lid hl hne
  · intro hla
    obtain ⟨h1, h2, h3, h4⟩ := h.late hla
    refine ⟨?_, ?_, h3, h4⟩
    · exact h1
    · intro lid t hne ht
      exact Nat.le_trans (h2 lid t hne ht) (hsz lid hne)
  · rw [hdl]
    intro lid hl hne t ht
    exact Nat.le_trans (h.done lid hl hne t ht) (hsz lid hne)
  · intro hp
    obtain ⟨l, c, h1, h2, h3⟩ := h.oth hp
    refine ⟨l, c, ?_, h2, h3⟩
    rw [← h1]
    exact rest_congr rfl (hfr hp)
  · obtain ⟨i, h1, h2, h3⟩ := h.order
    refine ⟨i, h1, h2, ?_⟩
    show (visited s.log).reverse = _
    rw [h3]
    unfold soFar
    rw [hdl]

/-- More audit transactions. -/
theorem Ready.growAudit {s : St} (h : Ready s AUDIT) (txns : List Txn) :
    Ready { s with audit := s.audit ++ txns } AUDIT := by
  have hp := h.phaseOf.1 rfl
  have hdl : doneList { s with audit := s.audit ++ txns } = doneList s := doneList_congr rfl rfl rfl rfl
  refine { raised := h.raised, ids := h.ids, own := h.own, zpos := h.zpos, cur := h.cur, early := h.early,
           late := ?_, done := ?_, oth := ?_, active := h.active, unsynced := h.unsynced,
           expects := (expected_congr rfl rfl).trans h.expects, free := h.free, others := h.others, order := ?_ }
  · intro hla
    have hla : Leecher.late s.phase := hla
    rw [hp] at hla; exact absurd hla id
  · rw [hdl]
    unfold doneList; rw [hp]
    intro lid hl; cases hl
  · intro e
    have e : s.phase = .others := e
    rw [hp] at e; cases e
  · exact h.order.frame rfl rfl rfl rfl rfl rfl

theorem Inv.act {s : St} (h : Inv s) (e : Ev) (ha : Allowed s e) : Inv (s.act e) := by
  unfold St.act
  cases e with
  | settle => exact h
  | start i => exact h.start i ha
  | decided lid tl z =>
    simp only
    split
    · rename_i hj
      refine (h.ready (by rw [hj]; intro h; cases h)).begin tl z (fun _ => ha) ?_
      intro _ t ht
      rw [h.decid lid hj] at ht; cases ht
    · exact h
  | reply lid o fz =>
    simp only
    split
    · rename_i n hj
      split
      · exact h
      · rename_i hne
        refine ((h.ready (by rw [hj]; intro h; cases h)).grow hne o ha fz).replied hj
          (fun t hne ht => h.fetch lid n t hne hj ht) ?_
        intro hph
        refine h.auditDone hph ?_
        have hr := h.ready (a := lid) (by rw [hj]; intro h; cases h)
        rw [hr.others AUDIT (fun e => hne e.symm)]; intro h; cases h
    · exact h
  | replyAudit txns =>
    simp only
    split
    · rename_i n hj
      refine ((h.ready (by rw [hj]; intro h; cases h)).growAudit txns).replied hj
        (fun t hne _ => absurd rfl hne) ?_
      intro hph
      exact h.auditDone hph (by rw [hj]; intro h; cases h)
    · exact h
  | ordered txns own fz =>
    simp only
    split
    · rename_i hph
      obtain ⟨h1, h2⟩ := h.idle hph
      refine Inv.ofIdle ?_ hph h1 h2
      refine { raised := h.raised, ids := h.ids, own := ha, zpos := h.zpos, cur := h.cur,
               early := h.early, late := ?_, done := ?_ }
      · intro hx
        have hx : Leecher.late s.phase := hx
        rw [hph] at hx; exact absurd hx id
      · intro lid hl
        unfold doneList at hl
        simp only [hph] at hl
        cases hl
    · exact h

theorem Inv.step {s : St} (h : Inv s) (e : Ev) (ha : Allowed s e) : Inv (s.step e) := by
  unfold St.step
  rw [if_neg (by rw [h.raised]; intro h; cases h)]
  rcases hp : s.pending with _ | a
  · exact h.act e ha
  · cases e with
    | settle => exact h.settle hp
    | _ => exact h

theorem Inv.run {s : St} (h : Inv s) (l : List Ev) (ha : AllAllowed s l) : Inv (s.run l) := by
  induction l generalizing s with
  | nil => exact h
  | cons e l ih => exact ih (h.step e ha.1) ha.2

/-! ### The end of a catchup -/

/-- The log grows by something else than the end of a catchup, and the ledgers stay. -/
def Adds (s s' : St) : Prop := ∃ r, s'.log = s.log ++ r ∧ Out.complete ∉ r

theorem Adds.refl (s : St) : Adds s s := ⟨[], (List.append_nil _).symm, List.not_mem_nil⟩

theorem Adds.of_eq {s s' : St} (h : s'.log = s.log) : Adds s s' := ⟨[], by rw [h, List.append_nil], List.not_mem_nil⟩

theorem Adds.trans {a b c : St} (h1 : Adds a b) (h2 : Adds b c) : Adds a c := by
  obtain ⟨r, h1, h1'⟩ := h1
  obtain ⟨q, h2, h2'⟩ := h2
  exact ⟨r ++ q, by rw [h2, h1, List.append_assoc], fun hx => (List.mem_append.1 hx).elim h1' h2'⟩

theorem Adds.no_end {s s' : St} (h : Adds s s') {r : List Out} (hl : s'.log = s.log ++ .complete :: r) : False := by
  obtain ⟨q, h1, h2⟩ := h
  rw [h1] at hl
  have := List.append_cancel_left hl
  rw [this] at h2
  exact h2 (List.mem_cons_self ..)

theorem adds_finish (s : St) (a n : Nat) : Adds s (s.finish a n) :=
  ⟨[.finished a], rfl, by intro h; cases h with | tail _ h => cases h⟩

theorem adds_begin (s : St) (a : Nat) (tl : Option Till) (z : Dict Name Nat) : Adds s (s.begin a tl z) := by
  have h1 : Adds s { s with sizes := s.sizes.set a z, log := s.log ++ [Out.begun a tl] } :=
    ⟨[.begun a tl], rfl, by intro h; cases h with | tail _ h => cases h⟩
  unfold St.begin
  cases tl with
  | none => exact h1.trans (adds_finish _ _ _)
  | some t =>
    simp only
    split
    · exact h1.trans (adds_finish _ _ _)
    · exact h1.trans (.of_eq rfl)

theorem adds_leech (s : St) (a : Nat) : Adds s (s.leech a) := by
  unfold St.leech
  split
  · exact .of_eq rfl
  · split
    · exact .of_eq rfl
    · exact adds_begin _ _ _ _

theorem adds_enter (s : St) (p : Phase) (a : Nat) : Adds s (s.enter p a) :=
  Adds.trans (b := { s with phase := p }) (.of_eq rfl) (adds_leech _ _)

theorem adds_doStart (s : St) (i : Bool) : Adds s (s.doStart i) := by
  have h1 : Adds s { s with synced := false, till := [], sizes := [], caught := [], log := s.log ++ [Out.started i] } :=
    ⟨[.started i], rfl, by intro h; cases h with | tail _ h => cases h⟩
  unfold St.doStart
  simp only
  split
  · exact h1.trans (adds_enter _ _ _)
  · exact h1.trans (adds_enter _ _ _)

theorem adds_start (s : St) (i : Bool) : Adds s (s.start i) := by
  unfold St.start
  split
  · exact .refl _
  · exact adds_doStart _ _

theorem adds_replied (s : St) (a : Nat) : Adds s (s.replied a) := by
  unfold St.replied
  split
  · split
    · exact adds_finish _ _ _
    · exact .refl _
  · exact .refl _

theorem adds_act (s : St) (e : Ev) : Adds s (s.act e) := by
  unfold St.act
  split
  · exact adds_start _ _
  · exact .refl _
  · split
    · exact adds_begin _ _ _ _
    · exact .refl _
  · split
    · split
      · exact .refl _
      · exact Adds.trans (.of_eq rfl) (adds_replied _ _)
    · exact .refl _
  · split
    · exact Adds.trans (.of_eq rfl) (adds_replied _ _)
    · exact .refl _
  · split
    · exact .of_eq rfl
    · exact .refl _

/-- The ledgers are what they were. -/
def Same (s s' : St) : Prop := s'.ids = s.ids ∧ s'.frozen = s.frozen ∧ s'.audit = s.audit ∧ s'.own = s.own

theorem same_begin (s : St) (a : Nat) (tl : Option Till) (z : Dict Name Nat) : Same s (s.begin a tl z) := by
  unfold St.begin
  cases tl with
  | none => exact ⟨rfl, rfl, rfl, rfl⟩
  | some t =>
    simp only
    split <;> exact ⟨rfl, rfl, rfl, rfl⟩

theorem same_leech (s : St) (a : Nat) : Same s (s.leech a) := by
  unfold St.leech
  split
  · exact ⟨rfl, rfl, rfl, rfl⟩
  · split
    · exact ⟨rfl, rfl, rfl, rfl⟩
    · exact same_begin _ _ _ _

theorem same_allCaughtUp (s : St) : Same s s.allCaughtUp := by
  unfold St.allCaughtUp
  simp only
  split
  · unfold St.start
    split
    · exact ⟨rfl, rfl, rfl, rfl⟩
    · unfold St.doStart
      simp only
      split
      · exact same_leech _ _
      · exact same_leech _ _
  · exact ⟨rfl, rfl, rfl, rfl⟩

/-- What has happened when a catchup ends. -/
structure Ended (s s' : St) : Prop where
  same : Same s s'
  visits : ∃ i l, lastStart s.log = some i ∧ s.rest = some l ∧ (visited s.log).reverse = plan i l
  reached : ∀ lid, lid ≠ AUDIT → (lid = POOL ∨ lid = CONFIG ∨ lid ∈ s.ids ∧ lid ∉ s.frozen) → Reached s lid
  targets : Targets s

theorem Step.ended {s : St} {l : List Nat} (h : Step s l) {r : List Out}
    (hl : s.syncNext.log = s.log ++ .complete :: r) : Ended s s.syncNext := by
  obtain ⟨n, hn⟩ := h.next
  have hrch := h.reached
  unfold St.syncNext at hl ⊢
  rw [h.rest] at hl ⊢
  simp only [hn] at hl ⊢
  cases n with
  | some n => exact ((adds_leech _ _).no_end hl).elim
  | none =>
    have hall := h.all hn
    obtain ⟨i, o1, o2⟩ := h.order
    refine { same := same_allCaughtUp _, visits := ⟨i, l, o1, h.rest, ?_⟩, reached := ?_, targets := ?_ }
    · rw [o2, soFar_others h.phase, List.append_assoc, hall]
      unfold plan
      rw [List.append_assoc]
    · intro lid hna hx
      refine hrch lid ?_
      rw [hall]
      obtain ⟨l', h4, _, h5⟩ := rest_some h.ids
      rw [h.rest] at h4; cases h4
      by_cases hp : lid = POOL
      · rw [hp]; simp
      · by_cases hc : lid = CONFIG
        · rw [hc]; simp
        · rcases hx with hx | hx | ⟨hx, hy⟩
          · exact absurd hx hp
          · exact absurd hx hc
          · exact List.mem_append_right _ ((h5 lid).2 ⟨hx, hna, hp, hc, hy⟩)
    · exact (h.late (by rw [h.phase]; trivial)).1

theorem Inv.ended {s : St} (h : Inv s) {e : Ev} {r : List Out}
    (hl : (s.step e).log = s.log ++ .complete :: r) : Ended s (s.step e) := by
  unfold St.step at hl ⊢
  rw [if_neg (by rw [h.raised]; intro h; cases h)] at hl ⊢
  rcases hp : s.pending with _ | a
  · rw [hp] at hl
    exact ((adds_act _ _).no_end hl).elim
  · rw [hp] at hl
    cases e with
    | settle =>
      obtain ⟨hne, hs, he, hj⟩ := h.settled hp
      have he' : St.expected { s with pending := none } = some a := (expected_congr rfl rfl).trans he
      simp only at hl ⊢
      unfold St.onComplete at hl ⊢
      rw [if_neg (fun hx => hx he')] at hl ⊢
      cases e : s.phase with
      | idle => exact absurd e hne
      | prePool =>
        simp only [e] at hl
        exact ((adds_enter _ _ _).no_end hl).elim
      | audit =>
        simp only [e] at hl
        exact ((adds_enter _ _ _).no_end hl).elim
      | pool =>
        simp only [e] at hl
        exact ((adds_enter _ _ _).no_end hl).elim
      | config =>
        simp only [e] at hl
        obtain ⟨l, h1⟩ := h.toStep hp (.inl e)
        have h2 := h1.ended hl
        exact { same := h2.same, visits := h2.visits, reached := h2.reached, targets := h2.targets }
      | others =>
        simp only [e] at hl
        obtain ⟨l, h1⟩ := h.toStep hp (.inr e)
        have h2 := h1.ended hl
        exact { same := h2.same, visits := h2.visits, reached := h2.reached, targets := h2.targets }
    | _ => exact ((Adds.refl _).no_end hl).elim

/-! ### The beginning -/

/-- A node with its ledgers, before its first catchup. -/
def fresh (ids : List Nat) (audit : List Txn) (own : Nat → Option Own) (frozen : List Nat) : St :=
  { ids := ids, frozen := frozen, audit := audit, own := own }

theorem Inv.fresh {ids : List Nat} {audit : List Txn} {own : Nat → Option Own} {frozen : List Nat}
    (h1 : Registered ids) (h2 : ∀ lid ∈ ids, lid ≠ AUDIT → (own lid).isSome) :
    Inv (fresh ids audit own frozen) :=
  Inv.ofIdle { raised := rfl, ids := h1, own := h2, zpos := by intro z h; cases h
               cur := fun _ => rfl, early := fun _ => rfl, late := fun h => absurd h id
               done := fun _ h => absurd h List.not_mem_nil } rfl rfl (fun _ => rfl)

/-! ### Registration -/

theorem ids_begin (s : St) (a : Nat) (tl : Option Till) (z : Dict Name Nat) : (s.begin a tl z).ids = s.ids :=
  (same_begin s a tl z).1

theorem ids_doStart (s : St) (i : Bool) : (s.doStart i).ids = s.ids := by
  unfold St.doStart
  simp only
  split
  · exact (same_leech _ _).1
  · exact (same_leech _ _).1

theorem ids_start (s : St) (i : Bool) : (s.start i).ids = s.ids := by
  unfold St.start
  split
  · rfl
  · exact ids_doStart _ _

theorem ids_replied (s : St) (a : Nat) : (s.replied a).ids = s.ids := by
  unfold St.replied
  split
  · split <;> rfl
  · rfl

theorem ids_syncNext (s : St) : s.syncNext.ids = s.ids := by
  unfold St.syncNext
  split
  · rfl
  · split
    · rfl
    · exact (same_allCaughtUp _).1
    · exact (same_leech _ _).1

theorem ids_step (s : St) (e : Ev) : (s.step e).ids = s.ids := by
  unfold St.step
  split
  · rfl
  · split
    · split
      · unfold St.onComplete
        split
        · rfl
        · split
          · rfl
          · exact (same_leech _ _).1
          · exact (same_leech _ _).1
          · exact (same_leech _ _).1
          · exact ids_syncNext _
          · exact ids_syncNext _
      · rfl
    · unfold St.act
      split
      · exact ids_start _ _
      · rfl
      · split
        · exact ids_begin _ _ _ _
        · rfl
      · split
        · split
          · rfl
          · exact ids_replied _ _
        · rfl
      · split
        · exact ids_replied _ _
        · rfl
      · split <;> rfl

theorem run_ids (s : St) (l : List Ev) : (s.run l).ids = s.ids := by
  induction l generalizing s with
  | nil => rfl
  | cons e l ih => exact (ih _).trans (ids_step s e)

end Verif.Leecher
