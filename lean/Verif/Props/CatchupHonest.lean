import Verif.Props.Catchup
import Verif.Props.Merkle
/-!
# Catchup from honest nodes (C32)
-/
namespace Verif.Props
open Verif.Catchup Verif.Merkle Verif.Spec

section
variable {τ : Type}

/-- A reply together with who sent it and the range it answers. -/
structure Answer (τ : Type) where
  rep : Rep τ
  frm : Name
  lo : Nat
  hi : Nat

/-- What `run` does on honest replies. -/
theorem honest_run {E : Env τ} (hE : E.Sound) {t : Till} {D : List τ} (hD : D.length = t.finalSize)
    (hroot : mth E.H (D.map E.ser) = t.finalHash)
    (htr : ∀ x ∈ D, E.transform x = some x) (hfill : ∀ n, ∀ x ∈ D, E.fill n x = x) {m : Nat} (hm : m < D.length)
    (reps : List (Answer τ)) (hr : ∀ r ∈ reps, HonestRange E D r.rep r.lo r.hi) :
    HInv E D t (fun n => ∃ r ∈ reps, (r.lo : Int) ≤ n ∧ n ≤ r.hi)
      (State.run E { ledger := D.take m } (.start (some t) :: reps.map (fun r => .rep r.rep r.frm))) := by
  induction reps using snoc_induction with
  | nil =>
    have hl : (D.take m).length = m := by rw [List.length_take]; omega
    have e : State.run E { ledger := D.take m } [.start (some t)] =
        { ledger := D.take m, working := true, till := some t } := by
      simp only [State.run, List.foldl_cons, List.foldl_nil, State.step, State.start]
      rw [hl, if_neg (by omega)]
    rw [List.map_nil, e]
    refine ⟨rfl, ⟨m, by omega, rfl, ?_, .inl ⟨rfl, hm, rfl⟩, ?_, ?_⟩, ?_, ?_, ?_, ?_, ?_, rfl⟩
    · rintro n ⟨r, h, _⟩; simp at h
    · simp
    · rintro r ⟨e, he, _⟩; simp at he
    · intro e he; simp at he
    · exact List.Pairwise.nil
    · simp [Dict.keys]
    · rintro r ⟨e, he, _⟩; simp at he
    · simp
  | snoc reps r ih =>
    have ih := ih (fun r h => hr r (List.mem_append_left _ h))
    have h2 := (ih.rep hE hD hroot htr hfill (hr r (by simp)) r.frm).2
    have e : State.run E { ledger := D.take m } (.start (some t) :: (reps ++ [r]).map (fun r => .rep r.rep r.frm)) =
        ((State.run E { ledger := D.take m } (.start (some t) :: reps.map (fun r => .rep r.rep r.frm))).processRep
          E r.rep r.frm).1 := by
      simp [State.run, State.step]
    rw [e]
    refine ⟨h2.till, ?_, h2.right, h2.sorted, h2.nodup, h2.honest, h2.cov, h2.clean⟩
    obtain ⟨k, h3, h4, h5, h6⟩ := h2.ex
    refine ⟨k, h3, h4, ?_, h6⟩
    rintro n ⟨r', hr', hn⟩
    rcases List.mem_append.1 hr' with h | h
    · exact h5 n (.inl ⟨r', h, hn⟩)
    · simp only [List.mem_singleton] at h; subst h; exact h5 n (.inr hn)

/-- **C32** (partial). A node whose ledger is the first `m` transactions of the log `D`
catches up to `D`. The replies it gets are those of honest nodes: they may come in any
order, overlap, and repeat. Then nobody is blamed, no exception is raised, the ledger is
always a beginning of `D`, and once the replies together hold every missing transaction
the ledger is `D` and catchup completes, once.

Partial: with replies of dishonest nodes among them an honest node can be blamed
(`C32_honest_blamed`). -/
theorem C32_honest_only_partial {E : Env τ} (hE : E.Sound) {t : Till} {D : List τ} (hD : D.length = t.finalSize)
    (hroot : mth E.H (D.map E.ser) = t.finalHash)
    (htr : ∀ x ∈ D, E.transform x = some x) (hfill : ∀ n, ∀ x ∈ D, E.fill n x = x) {m : Nat} (hm : m < D.length)
    (reps : List (Answer τ)) (hr : ∀ r ∈ reps, HonestRange E D r.rep r.lo r.hi) :
    let s := State.run E { ledger := D.take m } (.start (some t) :: reps.map (fun r => .rep r.rep r.frm))
    s.blacklisted = [] ∧ (∃ k, s.ledger = D.take k) ∧
    (∀ r frm lo hi, HonestRange E D r lo hi → (s.processRep E r frm).2 = none) ∧
    ((∀ n, m < n → n ≤ D.length → ∃ r ∈ reps, r.lo ≤ n ∧ n ≤ r.hi) →
      s.ledger = D ∧ s.working = false ∧ s.completed = 1) := by
  have h := honest_run hE hD hroot htr hfill hm reps hr
  have hp : D.take m <+: (State.run E { ledger := D.take m } (.start (some t) :: reps.map (fun r => .rep r.rep r.frm))).ledger := by
    have : ∀ (es : List (Event τ)) (s : State τ), s.ledger <+: (State.run E s es).ledger := by
      intro es
      induction es with
      | nil => intro s; exact List.prefix_refl _
      | cons e es ih => intro s; exact (C31_append_only E s e).trans (ih _)
    exact this (.start (some t) :: reps.map (fun r => .rep r.rep r.frm)) { ledger := D.take m }
  simp only
  generalize State.run E { ledger := D.take m } (.start (some t) :: reps.map (fun r => .rep r.rep r.frm)) = s at *
  obtain ⟨k, h1, h2, h3, h4, h5, _⟩ := h.ex
  refine ⟨h.clean, ⟨k, h2⟩, fun r frm lo hi hh => (h.rep hE hD hroot htr hfill hh frm).1, ?_⟩
  intro hall
  have hmk : m ≤ k := by
    have := hp.length_le
    rw [h2, List.length_take, List.length_take] at this
    omega
  rcases h4 with ⟨_, hlt, _⟩ | ⟨h4, rfl, h6⟩
  · exfalso
    obtain ⟨r, hr, ha, hb⟩ := hall (k + 1) (by omega) (by omega)
    rcases h3 (k + 1) ⟨r, hr, by omega, by omega⟩ with h | ⟨e, he, hn⟩
    · omega
    · have := h5 e he; omega
  · exact ⟨by rw [h2, List.take_length], h4, h6⟩

/-- **C32** (the honest node). Whatever the history of the seeder's ledger, if its
committed transactions begin with `D`, the reply it gives to a request for `lo..hi`
up to the size of `D` is one of those covered by `C32_honest_only_partial`, and it does
give one when the range is within `D`. -/
theorem C32_seeder (E : Env τ) (ops : List (LedgerOp τ)) (ha : LedgerState.AllAllowed ⟨[], []⟩ ops) (D : List τ)
    (hD : D <+: (LedgerState.run ⟨[], []⟩ ops).committed) (lo hi : Nat) :
    (∀ r, seederReply E (Ledger.new.run E.H E.ser ops) lo hi D.length = some r → HonestRange E D r lo hi) ∧
    (1 ≤ lo → lo ≤ hi → hi ≤ D.length → ∃ r, seederReply E (Ledger.new.run E.H E.ser ops) lo hi D.length = some r) := by
  have hinv := run_spec E.H E.ser (new_inv E.H E.ser) ops ha
  have hlen := hD.length_le
  have htk : ∀ k, k ≤ D.length → (LedgerState.run ⟨[], []⟩ ops).committed.take k = D.take k := by
    intro k hk
    obtain ⟨x, hx⟩ := hD
    rw [← hx, List.take_append_of_le_length hk]
  have hsz : (Ledger.new.run E.H E.ser ops).mem.tree.size = (LedgerState.run ⟨[], []⟩ ops).committed.length := hinv.mem.size
  have hlog : (Ledger.new.run E.H E.ser ops).disk.log = (LedgerState.run ⟨[], []⟩ ops).committed := hinv.log
  have key : 1 ≤ lo → lo ≤ hi → hi ≤ D.length → ∃ p,
      seederReply E (Ledger.new.run E.H E.ser ops) lo hi D.length = some ⟨txnRange E D lo hi, p⟩ ∧
      verifyTreeConsistency (TreeHasher.ofHash E.H) hi D.length (mth E.H ((D.take hi).map E.ser))
        (mth E.H (D.map E.ser)) p = .ok true := by
    intro h1 h2 h3
    obtain ⟨p, e1, e2⟩ := C04_consistency_complete E.H E.ser ops ha hi D.length (by omega) h3 hlen
    rw [htk hi h3, htk D.length (Nat.le_refl _), List.take_length] at e2
    refine ⟨p, ?_, e2⟩
    unfold seederReply
    rw [if_neg (by omega), if_neg (by omega), if_neg (by omega), if_neg (by omega), e1]
    simp only [txnRange, hlog, htk hi h3]
  refine ⟨?_, fun h1 h2 h3 => by obtain ⟨p, h, _⟩ := key h1 h2 h3; exact ⟨_, h⟩⟩
  intro r h
  have hb : 1 ≤ lo ∧ lo ≤ hi ∧ hi ≤ D.length := by
    unfold seederReply at h
    split at h; · cases h
    split at h; · cases h
    split at h; · cases h
    omega
  obtain ⟨p, e1, e2⟩ := key hb.1 hb.2.1 hb.2.2
  rw [e1] at h
  injection h with h
  subst h
  exact ⟨hb.1, hb.2.1, hb.2.2, rfl, e2⟩

/-- **C32** (the honest node, long replies). A reply too long for one message is cut in
two; both halves are covered too, and together they are the whole. -/
theorem C32_seeder_split (E : Env τ) (ops : List (LedgerOp τ)) (ha : LedgerState.AllAllowed ⟨[], []⟩ ops) (D : List τ)
    (hD : D <+: (LedgerState.run ⟨[], []⟩ ops).committed) (lo hi : Nat) (h1 : 1 ≤ lo) (h2 : lo < hi) (h3 : hi ≤ D.length) :
    ∃ r r' mid, splitReply E (Ledger.new.run E.H E.ser ops) D.length lo hi = some (r, r') ∧
      HonestRange E D r lo mid ∧ HonestRange E D r' (mid + 1) hi := by
  have hinv := run_spec E.H E.ser (new_inv E.H E.ser) ops ha
  have hlen := hD.length_le
  have htk : ∀ k, k ≤ D.length → (LedgerState.run ⟨[], []⟩ ops).committed.take k = D.take k := by
    intro k hk
    obtain ⟨x, hx⟩ := hD
    rw [← hx, List.take_append_of_le_length hk]
  have hlog : (Ledger.new.run E.H E.ser ops).disk.log = (LedgerState.run ⟨[], []⟩ ops).committed := hinv.log
  have hmid : lo ≤ lo + (hi + 1 - lo) / 2 - 1 ∧ lo + (hi + 1 - lo) / 2 - 1 < hi := by omega
  generalize hmid' : lo + (hi + 1 - lo) / 2 - 1 = mid at hmid
  obtain ⟨p, e1, e2⟩ := C04_consistency_complete E.H E.ser ops ha mid D.length (by omega) (by omega) hlen
  obtain ⟨q, f1, f2⟩ := C04_consistency_complete E.H E.ser ops ha hi D.length (by omega) h3 hlen
  rw [htk mid (by omega), htk D.length (Nat.le_refl _), List.take_length] at e2
  rw [htk hi h3, htk D.length (Nat.le_refl _), List.take_length] at f2
  refine ⟨⟨txnRange E D lo mid, p⟩, ⟨txnRange E D (mid + 1) hi, q⟩, mid, ?_, ⟨h1, hmid.1, by omega, rfl, e2⟩,
    ⟨by omega, by omega, h3, rfl, f2⟩⟩
  unfold splitReply
  simp only
  rw [if_neg (by omega), hmid', e1, f1]
  simp only [txnRange, hlog, htk mid (by omega), htk hi h3]

end

/-- **C32 fails** with one dishonest node. A node catching up to `[a, b]` first gets
`{"2": evil}` from the dishonest node 1, then the correct `{"1": a, "2": b}` from node 2.
It blacklists node 2, and not node 1. -/
theorem C32_honest_blamed (H : Bytes → Bytes) (a b evil : Bytes) (hne : mth H [a, evil] ≠ mth H [a, b]) :
    let s := State.run (pyEnv H) { ledger := [] }
      [.start (some ⟨0, 2, mth H [a, b]⟩),
       .rep ⟨[("2".toList, evil)], []⟩ 1,
       .rep ⟨[("1".toList, a), ("2".toList, b)], []⟩ 2]
    HonestRange (pyEnv H) [a, b] ⟨[("1".toList, a), ("2".toList, b)], []⟩ 1 2 ∧
    s.blacklisted = [2] ∧ s.ledger = [] := by
  have h1 : Py.int ['1'] = some 1 := by decide
  have h2 : Py.int ['2'] = some 2 := by decide
  have g1 : Py.str 1 = ['1'] := by decide
  have g2 : Py.str 2 = ['2'] := by decide
  have hn1 : numbered (pyEnv H) [("2".toList, evil)] = some [(2, evil)] := by
    simp [numbered, pyEnv, h2]
  have hn : numbered (pyEnv H) [("1".toList, a), ("2".toList, b)] = some [(1, a), (2, b)] := by
    simp [numbered, pyEnv, h1, h2]
  have hi1 : interesting 0 [((2 : Int), evil)] = [(2, evil)] := by
    have : [((2 : Int), evil)].mergeSort le = [(2, evil)] := List.mergeSort_of_pairwise (by simp)
    simp [interesting, this, consecutive]
  have hi : interesting 0 [((1 : Int), a), (2, b)] = [(1, a), (2, b)] := by
    have : [((1 : Int), a), (2, b)].mergeSort le = [(1, a), (2, b)] :=
      List.mergeSort_of_pairwise (by simp [le])
    simp [interesting, this, consecutive]
  have hm1 : mergeTxns [] [((2 : Int), evil)] = [(2, evil)] := by simp [mergeTxns]
  have hm : mergeTxns [((2 : Int), evil)] [((1 : Int), a), (2, b)] = [(1, a), (2, evil)] := by
    simp [mergeTxns, List.merge, le]
  have hl1 (s : State Bytes) (t : Till) (h : s.ledger = []) :
      processLoop (pyEnv H) s t [((2 : Int), evil)] 0 = (s, .ok 0) := by
    rw [processLoop.eq_def]
    simp [h]
  have hp1 : State.processRep (pyEnv H) { ledger := [], working := true, till := some ⟨0, 2, mth H [a, b]⟩ }
      ⟨[("2".toList, evil)], []⟩ 1 =
      ({ ledger := [], working := true, till := some ⟨0, 2, mth H [a, b]⟩,
         replies := [(1, [⟨[("2".toList, evil)], []⟩])], pending := [((2 : Int), evil)] }, none) := by
    unfold State.processRep
    simp only [hn1, hi1, List.length_nil]
    simp [processTxns, hm1, Dict.set, hl1]
  have hp : ∃ s, State.processRep (pyEnv H)
      { ledger := [], working := true, till := some ⟨0, 2, mth H [a, b]⟩,
        replies := [(1, [⟨[("2".toList, evil)], []⟩])], pending := [((2 : Int), evil)] }
      ⟨[("1".toList, a), ("2".toList, b)], []⟩ 2 = (s, none) ∧ s.blacklisted = [2] ∧ s.ledger = [] := by
    unfold State.processRep
    simp only [hn, hi, List.length_nil]
    simp only [processTxns, hm]
    rw [processLoop.eq_def]
    simp [findReply, Rep.holds, pyEnv, g1, g2, Dict.has, toCheck, tempLeaves, verified,
      verifyTreeConsistency, removeReply, Dict.get?, Dict.set, hne]
  obtain ⟨s', e, r1, r2⟩ := hp
  refine ⟨⟨by decide, by decide, by simp, ?_, ?_⟩, ?_⟩
  · simp [txnRange, pyEnv, g1, g2]
  · simp [verifyTreeConsistency]
  simp only [State.run, List.foldl_cons, List.foldl_nil, State.step, State.start]
  simp only [List.length_nil, show ¬ (0 ≥ 2) by decide, if_false]
  simp only [hp1, e]
  exact ⟨r1, r2⟩

/-- The two halves of a seeder's reply, in the wrong order and from two nodes, complete
the catchup of a node that has the first entry. -/
example : ∃ r r', splitReply (pyEnv toyHash) (Ledger.new.run toyHash id exampleOps) 5 2 5 = some (r, r') ∧
    (State.run (pyEnv toyHash) { ledger := [[1]] }
      [.start (some ⟨1, 5, mth toyHash [[1], [2], [3], [4], [6]]⟩), .rep r' 8, .rep r 7]).ledger =
      [[1], [2], [3], [4], [6]] := by
  have hD : [[1], [2], [3], [4], [6]] <+: (LedgerState.run ⟨[], []⟩ exampleOps).committed := by
    rw [exampleOps_result]; exact List.prefix_refl _
  obtain ⟨r, r', mid, h1, h2, h3⟩ := C32_seeder_split (pyEnv toyHash) exampleOps exampleOps_allowed _ hD 2 5
    (by decide) (by decide) (by decide)
  have hmid : mid + 1 ≤ 5 := h3.2.1
  have hlo : 2 ≤ mid := h2.2.1
  have := C32_honest_only_partial (pyEnv_sound toyHash) (t := ⟨1, 5, mth toyHash [[1], [2], [3], [4], [6]]⟩)
    (D := [[1], [2], [3], [4], [6]]) rfl (by simp [pyEnv]) (fun _ _ => rfl) (fun _ _ _ => rfl) (m := 1) (by decide)
    [⟨r', 8, mid + 1, 5⟩, ⟨r, 7, 2, mid⟩] (by
      intro x hx
      simp only [List.mem_cons, List.not_mem_nil, or_false] at hx
      rcases hx with rfl | rfl
      · exact h3
      · exact h2)
  refine ⟨r, r', h1, (this.2.2.2 ?_).1⟩
  intro n hn1 hn2
  simp only [List.length_cons, List.length_nil] at hn2
  by_cases h : n ≤ mid
  · exact ⟨⟨r, 7, 2, mid⟩, by simp, hn1, h⟩
  · exact ⟨_, List.mem_cons_self, by simp; omega, hn2⟩

/-- With this hash function the two logs of `C32_honest_blamed` do differ. -/
example : mth toyHash [[1], [9]] ≠ mth toyHash [[1], [2]] := by
  have h : ∀ x y : Bytes, mth toyHash [x, y] = toyHash (nodeInput (toyHash (leafInput x)) (toyHash (leafInput y))) := by
    intro x y
    rw [mth]
    have : splitPoint 2 = 1 := by decide
    simp [this, mth]
  rw [h, h]
  decide

end Verif.Props
