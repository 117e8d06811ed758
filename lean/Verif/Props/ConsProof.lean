import Verif.Model.ConsProof
import Verif.Proofs.Count
/-!
# The target of catchup (C30)
-/
namespace Verif.Props
open Verif.ConsProof
open Verif.Catchup (Name)

/-- How often a value is counted. -/
def counted (g : Dict (Nat × Nat) (Dict Key Nat)) (se : Nat × Nat) (k : Key) : Nat :=
  (((g.get? se).getD []).get? k).getD 0

theorem counted_groupAdd (g : Dict (Nat × Nat) (Dict Key Nat)) (p : Proof) (se : Nat × Nat) (k : Key) :
    counted (groupAdd g p) se k = counted g se k + (if (p.seqStart, p.seqEnd) = se ∧ p.key = k then 1 else 0) := by
  unfold counted groupAdd
  simp only [Dict.get?_set]
  by_cases h1 : (p.seqStart, p.seqEnd) = se
  · subst h1
    simp only [if_true, Option.getD_some, Dict.get?_set, true_and]
    by_cases h2 : p.key = k
    · subst h2; simp
    · simp [h2]
  · simp [h1]

theorem counted_foldl (ps : List Proof) (g : Dict (Nat × Nat) (Dict Key Nat)) (se : Nat × Nat) (k : Key) :
    counted (ps.foldl groupAdd g) se k =
      counted g se k + (ps.filter (fun p => decide ((p.seqStart, p.seqEnd) = se ∧ p.key = k))).length := by
  induction ps generalizing g with
  | nil => simp
  | cons p ps ih =>
    rw [List.foldl_cons, ih, counted_groupAdd, List.filter_cons]
    by_cases h : (p.seqStart, p.seqEnd) = se ∧ p.key = k
    · rw [if_pos h]
      simp only [h, and_self, decide_true, if_true, List.length_cons]
      omega
    · rw [if_neg h]
      simp only [h, decide_false]
      simp

theorem groupAdd_nodup {g : Dict (Nat × Nat) (Dict Key Nat)} (p : Proof)
    (h : g.keys.Nodup ∧ ∀ e ∈ g, (Dict.keys e.2).Nodup) :
    (groupAdd g p).keys.Nodup ∧ ∀ e ∈ groupAdd g p, (Dict.keys e.2).Nodup := by
  refine ⟨Dict.nodup_keys_set h.1 _ _, ?_⟩
  intro e he
  rcases Dict.mem_set he with he | he
  · exact h.2 e he
  · subst he
    apply Dict.nodup_keys_set
    cases hg : g.get? (p.seqStart, p.seqEnd) with
    | none => simp [Dict.keys]
    | some r => exact h.2 _ (Dict.mem_of_get? hg)

theorem foldl_groupAdd_nodup (ps : List Proof) : ∀ {g : Dict (Nat × Nat) (Dict Key Nat)},
    (g.keys.Nodup ∧ ∀ e ∈ g, (Dict.keys e.2).Nodup) →
    (ps.foldl groupAdd g).keys.Nodup ∧ ∀ e ∈ ps.foldl groupAdd g, (Dict.keys e.2).Nodup := by
  induction ps with
  | nil => intro g h; exact h
  | cons p ps ih => intro g h; exact ih (groupAdd_nodup p h)

theorem latest_mem (size : Nat) : ∀ (l : List ((Nat × Nat) × Key)) (acc : Option ((Nat × Nat) × Key))
    (r : (Nat × Nat) × Key), l.foldl (latestStep size) acc = some r → acc = some r ∨ (r ∈ l ∧ r.1.1 = size)
  | [], acc, r, h => .inl h
  | e :: l, acc, r, h => by
    rw [List.foldl_cons] at h
    rcases latest_mem size l _ r h with h | ⟨h1, h2⟩
    · unfold latestStep at h
      split at h
      · exact .inl h
      · rename_i hsz
        have hsz : e.1.1 = size := by simpa using hsz
        split at h
        · injection h with h; subst h
          exact .inr ⟨List.mem_cons_self, hsz⟩
        · split at h
          · injection h with h; subst h
            exact .inr ⟨List.mem_cons_self, hsz⟩
          · exact .inl h
    · exact .inr ⟨List.mem_cons_of_mem _ h1, h2⟩

/-- The nodes whose current proof satisfies a condition. -/
def holders (proofs : Dict Name (Option Proof)) (c : Proof → Bool) : List Name :=
  (proofs.filter (fun e => match e.2 with | none => false | some p => c p)).map Prod.fst

theorem holders_length (proofs : Dict Name (Option Proof)) (c : Proof → Bool) :
    (holders proofs c).length = ((proofs.filterMap Prod.snd).filter c).length := by
  unfold holders
  rw [List.length_map]
  induction proofs with
  | nil => rfl
  | cons e l ih =>
    obtain ⟨x, o⟩ := e
    cases o with
    | none => simpa using ih
    | some p =>
      simp only [List.filter_cons, List.filterMap_cons]
      by_cases h : c p = true
      · simp [h, ih]
      · simp only [h]; simpa using ih

theorem holders_nodup {proofs : Dict Name (Option Proof)} (h : proofs.keys.Nodup) (c : Proof → Bool) :
    (holders proofs c).Nodup := h.sublist ((List.filter_sublist).map _)

theorem mem_holders {proofs : Dict Name (Option Proof)} {c : Proof → Bool} {x : Name} (h : x ∈ holders proofs c) :
    ∃ p, (x, some p) ∈ proofs ∧ c p = true := by
  obtain ⟨⟨y, o⟩, he, rfl⟩ := List.mem_map.1 h
  have he := List.mem_filter.1 he
  cases o with
  | none => simp at he
  | some p => exact ⟨p, he.1, by simpa using he.2⟩

/-- The target was sent by enough nodes. -/
theorem proofForCatchup_spec {s : State} (hn : s.proofs.keys.Nodup) {t : Till} (h : s.proofForCatchup = some t) :
    t.start = s.size ∧ ∃ names : List Name, names.Nodup ∧ s.q.f + 1 ≤ names.length ∧
      ∀ x ∈ names, ∃ p, (x, some p) ∈ s.proofs ∧ p.seqStart = t.start ∧ p.seqEnd = t.final ∧ p.newRoot = t.root := by
  unfold State.proofForCatchup at h
  split at h
  · cases h
  · cases hl : s.latestReliable (group s.proofs) with
    | none => rw [hl] at h; simp at h
    | some l =>
      rw [hl] at h
      simp only [Option.map_some, Option.some.injEq] at h
      subst h
      rcases latest_mem _ _ _ _ hl with h | ⟨hm, hsz⟩
      · cases h
      · refine ⟨hsz, ?_⟩
        obtain ⟨⟨se, r⟩, he, hk⟩ := List.mem_filterMap.1 hm
        cases hf : r.find? (fun k => s.q.sameConsistencyProof.isReached k.2) with
        | none => rw [hf] at hk; simp at hk
        | some kc =>
          simp only at hk
          rw [hf] at hk
          simp only [Option.map_some, Option.some.injEq] at hk
          subst hk
          have hq := List.find?_some hf
          have hkm := List.mem_of_find?_eq_some hf
          obtain ⟨n1, n2⟩ := foldl_groupAdd_nodup (s.proofs.filterMap Prod.snd) (g := [])
            ⟨by simp [Dict.keys], by simp⟩
          have hc : counted (group s.proofs) se kc.1 = kc.2 := by
            unfold counted
            rw [show (group s.proofs).get? se = some r from Dict.get?_of_mem n1 he]
            simp only [Option.getD_some]
            rw [Dict.get?_of_mem (n2 _ he) (v := kc.2) (by exact hkm)]
            rfl
          unfold group at hc
          rw [counted_foldl] at hc
          simp only [counted, Dict.get?_nil, Option.getD_none, Nat.zero_add] at hc
          rw [← holders_length] at hc
          refine ⟨holders s.proofs (fun p => decide ((p.seqStart, p.seqEnd) = se ∧ p.key = kc.1)),
            holders_nodup hn _, ?_, ?_⟩
          · have : s.q.f + 1 ≤ kc.2 := by simpa [Quorum.isReached, State.q, Quorums.ofN] using hq
            omega
          · intro x hx
            obtain ⟨p, hp, hcp⟩ := mem_holders hx
            simp only [decide_eq_true_eq] at hcp
            refine ⟨p, hp, ?_, ?_, ?_⟩
            · rw [← hcp.1]
            · rw [← hcp.1]
            · rw [← hcp.2]; rfl

/-- What the service knows comes from the messages. -/
structure ConsInv (ms : List (Name × Msg)) (size : Nat) (s : State) : Prop where
  sz : s.size = size
  keys : s.proofs.keys.Nodup
  same : s.same.Nodup
  fromProof : ∀ x p, (x, some p) ∈ s.proofs → (x, .proof p) ∈ ms ∧ p.seqStart < p.seqEnd
  fromNull : ∀ x, (x, none) ∈ s.proofs → ∃ st, (x, .status st) ∈ ms ∧ st.size ≤ size
  fromSame : ∀ x ∈ s.same, ∃ st, (x, .status st) ∈ ms ∧ st.size ≤ size

theorem ConsInv.mono {ms ms' : List (Name × Msg)} {size : Nat} {s : State} (h : ConsInv ms size s)
    (hs : ∀ m ∈ ms, m ∈ ms') : ConsInv ms' size s :=
  ⟨h.sz, h.keys, h.same, fun x p hp => ⟨hs _ (h.fromProof x p hp).1, (h.fromProof x p hp).2⟩,
   fun x hx => (h.fromNull x hx).imp (fun _ a => ⟨hs _ a.1, a.2⟩),
   fun x hx => (h.fromSame x hx).imp (fun _ a => ⟨hs _ a.1, a.2⟩)⟩

/-- Enough nodes said that they have no more transactions. -/
def UpToDate (n size : Nat) (ms : List (Name × Msg)) : Prop :=
  ∃ names : List Name, names.Nodup ∧ n - getMaxFailures n - 1 ≤ names.length ∧
    ∀ x ∈ names, ∃ st, (x, Msg.status st) ∈ ms ∧ st.size ≤ size

/-- Enough nodes sent a proof of growth from the given size to the target. -/
def VouchedFor (n size : Nat) (ms : List (Name × Msg)) (t : Till) : Prop :=
  ∃ names : List Name, names.Nodup ∧ getMaxFailures n + 1 ≤ names.length ∧
    ∀ x ∈ names, ∃ p, (x, Msg.proof p) ∈ ms ∧ p.seqStart = size ∧ p.seqEnd = t.final ∧ p.newRoot = t.root

theorem notNeeded {ms : List (Name × Msg)} {size : Nat} {s : State} (h : ConsInv ms size s)
    (hc : s.catchupNeeded = false) : UpToDate s.n size ms := by
  unfold State.catchupNeeded at hc
  split at hc
  · rename_i hq
    refine ⟨s.same, h.same, ?_, h.fromSame⟩
    simpa [Quorum.isReached, State.q, Quorums.ofN] using hq
  · split at hc
    · cases hc
    · split at hc
      · rename_i hq
        refine ⟨(s.proofs.filter (fun e => e.2.isNone)).map Prod.fst, h.keys.sublist ((List.filter_sublist).map _), ?_, ?_⟩
        · rw [List.length_map]
          simpa [Quorum.isReached, State.q, Quorums.ofN, nullProofs] using hq
        · intro x hx
          obtain ⟨⟨y, o⟩, he, rfl⟩ := List.mem_map.1 hx
          have he := List.mem_filter.1 he
          cases o with
          | none => exact h.fromNull y he.1
          | some p => simp at he
      · cases hc

/-- What one decision must look like. -/
def Decision (n size root : Nat) (ms : List (Name × Msg)) (t : Option Till) : Prop :=
  (∃ t', t = some t' ∧ t'.start = size ∧ size < t'.final ∧ VouchedFor n size ms t') ∨
  ((t = none ∨ t = some ⟨size, size, root⟩) ∧ UpToDate n size ms)

/-- The state of one round. -/
structure RoundInv (out : List (Option Till × Dict Name Nat)) (n size root : Nat) (ms : List (Name × Msg)) (s : State) : Prop where
  inv : ConsInv ms size s
  hn : s.n = n
  hroot : s.root = root
  outs : s.working = true ∧ s.out = out ∨ s.working = false ∧ ∃ o, s.out = out ++ [o] ∧ Decision n size root ms o.1

theorem Decision.mono {n size root : Nat} {ms ms' : List (Name × Msg)} {t : Option Till} (h : Decision n size root ms t)
    (hs : ∀ m ∈ ms, m ∈ ms') : Decision n size root ms' t := by
  rcases h with ⟨t', h1, h2, h3, names, h4, h5, h6⟩ | ⟨h1, names, h4, h5, h6⟩
  · exact .inl ⟨t', h1, h2, h3, names, h4, h5, fun x hx => (h6 x hx).imp (fun _ a => ⟨hs _ a.1, a.2⟩)⟩
  · exact .inr ⟨h1, names, h4, h5, fun x hx => (h6 x hx).imp (fun _ a => ⟨hs _ a.1, a.2⟩)⟩

theorem ConsInv.finish {ms : List (Name × Msg)} {size : Nat} {s : State} (h : ConsInv ms size s) (t : Option Till) :
    ConsInv ms size (s.finish t) :=
  ⟨h.sz, by simp [State.finish, Dict.keys], by simp [State.finish], by simp [State.finish], by simp [State.finish],
   by simp [State.finish]⟩

theorem RoundInv.finishNo {out : List (Option Till × Dict Name Nat)} {n size root : Nat} {ms : List (Name × Msg)} {s : State}
    (h : ConsInv ms size s) (hn : s.n = n) (hr : s.root = root) (ho : s.out = out) (hc : s.catchupNeeded = false) :
    RoundInv out n size root ms s.finishNoCatchup := by
  have hu := notNeeded h hc
  rw [hn] at hu
  unfold State.finishNoCatchup
  split
  · exact ⟨h.finish _, hn, hr, .inr ⟨rfl, _, by simp only [State.finish]; rw [ho], .inr ⟨.inl rfl, hu⟩⟩⟩
  · refine ⟨h.finish _, hn, hr, .inr ⟨rfl, _, by simp only [State.finish]; rw [ho], .inr ⟨.inr ?_, hu⟩⟩⟩
    rw [h.sz, hr]

theorem RoundInv.step {out : List (Option Till × Dict Name Nat)} {n size root : Nat} {ms : List (Name × Msg)} {s : State}
    (h : RoundInv out n size root ms s) (m : Name × Msg) : RoundInv out n size root (ms ++ [m]) (s.step m) := by
  have hmono : ∀ x ∈ ms, x ∈ ms ++ [m] := fun x hx => List.mem_append_left _ hx
  have hsame : RoundInv out n size root (ms ++ [m]) s :=
    ⟨h.inv.mono hmono, h.hn, h.hroot, h.outs.imp (fun a => a) (fun ⟨a, o, b, c⟩ => ⟨a, o, b, c.mono hmono⟩)⟩
  obtain ⟨frm, msg⟩ := m
  cases msg with
  | status st =>
    simp only [State.step, State.processStatus]
    split
    · exact hsame
    · rename_i hw
      split
      · exact hsame
      · rename_i hsz
        have hw : s.working = true := by simpa using hw
        have hout : s.out = out := by
          rcases h.outs with ⟨_, h⟩ | ⟨h, _⟩
          · exact h
          · rw [hw] at h; cases h
        have hst : ∃ st', (frm, Msg.status st') ∈ ms ++ [(frm, .status st)] ∧ st'.size ≤ size :=
          ⟨st, by simp, by rw [← h.inv.sz]; omega⟩
        have h1 : ∀ l, ConsInv (ms ++ [(frm, .status st)]) size
            { s with same := if frm ∈ s.same then s.same else s.same ++ [frm], proofs := s.proofs.set frm none, last3pc := l } := by
          intro l
          refine ⟨h.inv.sz, Dict.nodup_keys_set h.inv.keys _ _, ?_, ?_, ?_, ?_⟩
          · simp only
            split
            · exact h.inv.same
            · rename_i hni
              rw [List.nodup_append]
              refine ⟨h.inv.same, by simp, ?_⟩
              intro a ha b hb
              simp only [List.mem_singleton] at hb
              subst hb
              rintro rfl
              exact hni ha
          · intro x p hp
            rcases Dict.mem_set hp with hp | hp
            · exact hsame.inv.fromProof x p hp
            · injection hp with _ hp; cases hp
          · intro x hx
            rcases Dict.mem_set hx with hx | hx
            · exact hsame.inv.fromNull x hx
            · injection hx with hx _; subst hx; exact hst
          · intro x hx
            simp only at hx
            split at hx
            · exact hsame.inv.fromSame x hx
            · rcases List.mem_append.1 hx with hx | hx
              · exact hsame.inv.fromSame x hx
              · simp only [List.mem_singleton] at hx; subst hx; exact hst
        have h2 : ∃ l, (if s.size = st.size then
            ({ s with same := if frm ∈ s.same then s.same else s.same ++ [frm], proofs := s.proofs.set frm none,
                      last3pc := s.last3pc.set frm (st.viewNo, st.ppSeqNo) } : State)
            else { s with same := if frm ∈ s.same then s.same else s.same ++ [frm], proofs := s.proofs.set frm none }) =
            { s with same := if frm ∈ s.same then s.same else s.same ++ [frm], proofs := s.proofs.set frm none, last3pc := l } := by
          split
          · exact ⟨_, rfl⟩
          · exact ⟨s.last3pc, rfl⟩
        obtain ⟨l, h2⟩ := h2
        simp only [h2]
        generalize hs' : ({ s with same := if frm ∈ s.same then s.same else s.same ++ [frm], proofs := s.proofs.set frm none, last3pc := l } : State) = s'
        have h1 := h1 l
        rw [hs'] at h1
        have f1 : s'.n = s.n ∧ s'.root = s.root ∧ s'.out = s.out ∧ s'.working = s.working := by
          rw [← hs']; exact ⟨rfl, rfl, rfl, rfl⟩
        split
        · exact ⟨h1, by rw [f1.1, h.hn], by rw [f1.2.1, h.hroot], .inl ⟨by rw [f1.2.2.2, hw], by rw [f1.2.2.1, hout]⟩⟩
        · rename_i hc
          exact RoundInv.finishNo h1 (by rw [f1.1, h.hn]) (by rw [f1.2.1, h.hroot]) (by rw [f1.2.2.1, hout]) (by simpa using hc)
  | proof p =>
    simp only [State.step, State.processProof]
    split
    · exact hsame
    · rename_i hw
      split
      · exact hsame
      · rename_i hst
        split
        · exact hsame
        · rename_i hen
          have hw : s.working = true := by simpa using hw
          have hout : s.out = out := by
            rcases h.outs with ⟨_, h⟩ | ⟨h, _⟩
            · exact h
            · rw [hw] at h; cases h
          have h1 : ConsInv (ms ++ [(frm, .proof p)]) size { s with proofs := s.proofs.set frm (some p) } := by
            refine ⟨h.inv.sz, Dict.nodup_keys_set h.inv.keys _ _, h.inv.same, ?_, ?_, hsame.inv.fromSame⟩
            · intro x p' hp
              rcases Dict.mem_set hp with hp | hp
              · exact hsame.inv.fromProof x p' hp
              · injection hp with h1 h2
                injection h2 with h2
                subst h1; subst h2
                exact ⟨by simp, by omega⟩
            · intro x hx
              rcases Dict.mem_set hx with hx | hx
              · exact hsame.inv.fromNull x hx
              · injection hx with _ hx; cases hx
          split
          · rename_i hc
            exact RoundInv.finishNo h1 h.hn h.hroot hout (by simpa using hc)
          · split
            · exact ⟨h1, h.hn, h.hroot, .inl ⟨hw, hout⟩⟩
            · rename_i till ht
              obtain ⟨t1, names, t2, t3, t4⟩ := proofForCatchup_spec h1.keys ht
              have hs1 : till.start = size := by rw [t1]; exact h.inv.sz
              have t3 : getMaxFailures n + 1 ≤ names.length := by
                rw [← h.hn]; exact t3
              refine ⟨h1.finish _, h.hn, h.hroot, .inr ⟨rfl, _, by simp only [State.finish]; rw [hout], .inl ⟨till, rfl, hs1, ?_, names, t2, t3, ?_⟩⟩⟩
              · obtain ⟨x, hx⟩ := List.exists_mem_of_ne_nil names (by rintro rfl; simp at t3)
                obtain ⟨p', q1, q2, q3, q4⟩ := t4 x hx
                have := (h1.fromProof x p' q1).2
                omega
              · intro x hx
                obtain ⟨p', q1, q2, q3, q4⟩ := t4 x hx
                exact ⟨p', (h1.fromProof x p' q1).1, by rw [q2, hs1], q3, q4⟩

theorem RoundInv.run (s0 : State) (n size root : Nat) (ms : List (Name × Msg)) :
    RoundInv s0.out n size root ms ((s0.start n size root).run ms) := by
  induction ms using snoc_induction with
  | nil =>
    exact ⟨⟨rfl, by simp [State.run, State.start, Dict.keys], by simp [State.run, State.start],
      by simp [State.run, State.start], by simp [State.run, State.start], by simp [State.run, State.start]⟩,
      rfl, rfl, .inl ⟨rfl, rfl⟩⟩
  | snoc ms m ih =>
    have := ih.step m
    simpa [State.run] using this

/-- **C30** (partial). A node with a ledger of `size` transactions in a pool of `n` starts
to look for a target and gets any messages from any senders. It decides at most
once. It decides on a target only if at least `f+1` different nodes each sent a proof
of growth from its own size to exactly that size and root. It decides that it needs
nothing only if at least `n-f-1` different nodes said they have no more transactions.

Partial: those nodes need not have the same transactions: `C30_fork_unnoticed`. -/
theorem C30_target_partial (s0 : State) (n size root : Nat) (ms : List (Name × Msg)) :
    let s := (s0.start n size root).run ms
    s.out = s0.out ∨ ∃ t sizes, s.out = s0.out ++ [(t, sizes)] ∧
      ((∃ t', t = some t' ∧ t'.start = size ∧ size < t'.final ∧ VouchedFor n size ms t') ∨
       ((t = none ∨ t = some ⟨size, size, root⟩) ∧ UpToDate n size ms)) := by
  rcases (RoundInv.run s0 n size root ms).outs with ⟨_, h⟩ | ⟨_, ⟨t, sizes⟩, h1, h2⟩
  · exact .inl h
  · exact .inr ⟨t, sizes, h1, h2⟩

/-- **C30** (an honest node). If at most `f` nodes are dishonest, an honest node has
proposed exactly the target decided on. -/
theorem C30_honest_voucher {n size : Nat} {ms : List (Name × Msg)} {t : Till} (h : VouchedFor n size ms t)
    (F : List Name) (hF : F.length ≤ getMaxFailures n) :
    ∃ x, x ∉ F ∧ ∃ p, (x, Msg.proof p) ∈ ms ∧ p.seqStart = size ∧ p.seqEnd = t.final ∧ p.newRoot = t.root := by
  obtain ⟨names, h1, h2, h3⟩ := h
  obtain ⟨x, hx, hxF⟩ := mem_of_length_lt (A := names) (B := F) h1 (by omega)
  exact ⟨x, hxF, h3 x hx⟩

/-- Two honest nodes out of four propose the same, and one dishonest node something else. -/
example : (({} : State).start 4 3 77).run
      [(1, .proof ⟨3, 9, 0, 9, 77, 66, []⟩), (2, .proof ⟨3, 8, 0, 8, 77, 55, [5]⟩), (1, .proof ⟨3, 10, 0, 9, 77, 66, []⟩),
       (3, .proof ⟨3, 8, 0, 8, 77, 55, [5]⟩)] =
    { n := 4, size := 3, root := 77, out := [(some ⟨3, 8, 55⟩, [(1, 10), (2, 8), (3, 8)])] } := by
  rfl

/-- **C30 fails** for a node that has other transactions than the rest: if all the other
nodes of a pool of four report a ledger of the same size with another root, the node
still decides that it needs nothing. -/
theorem C30_fork_unnoticed (s0 : State) (size root root' : Nat) :
    ((s0.start 4 size root).run
      [(1, .status ⟨size, none, none, root'⟩), (2, .status ⟨size, none, none, root'⟩),
       (3, .status ⟨size, none, none, root'⟩)]).out = s0.out ++ [(none, [])] := by
  simp [State.run, State.step, State.start, State.processStatus, State.catchupNeeded, State.q, Quorums.ofN,
    Quorum.isReached, getMaxFailures, Dict.set, nullProofs, State.finishNoCatchup, State.hasLast3pc, State.finish]

end Verif.Props
