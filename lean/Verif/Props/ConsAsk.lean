import Verif.Proofs.ConsAsk
/-!
# Asking for consistency proofs (C106)
-/
namespace Verif.Props
open Verif.ConsAsk Verif.ConsAsk.Spec
open Verif.Catchup (Name)
open Verif.ConsProof (Proof Status Msg)

/-- A node that has just been told to look for a target of catchup; nothing is known about what it
did before. -/
def looking (a0 : Ask) (request : Bool) (n size root : Nat) : Ask :=
  ({ a0 with sent := [] } : Ask).start request n size root

theorem looking_cp (a0 : Ask) (request : Bool) (n size root : Nat) (evs : List Ev) :
    ((looking a0 request n size root).run evs).cp = (a0.cp.start n size root).run (msgs evs) :=
  run_cp _ evs

theorem looking_size (a0 : Ask) (request : Bool) (n size root : Nat) (evs : List Ev) :
    ((looking a0 request n size root).run evs).cp.size = size ∧ ((looking a0 request n size root).run evs).cp.n = n := by
  rw [looking_cp]
  have h := RoundInv.run a0.cp n size root (msgs evs)
  exact ⟨h.inv.sz, h.hn⟩

/-- **C106** (it decides). Whatever messages came and timers fired: as soon as `f+1` nodes say last that
the ledger grows from the node's size in exactly the same way, the node does not look for a target any
more. -/
theorem C106_decides (a0 : Ask) (request : Bool) (n size root : Nat) (evs : List Ev) (p : Proof)
    (hp : p.seqStart = size) (X : List Name) (hX : X.Nodup) (hlen : getMaxFailures n + 1 ≤ X.length)
    (hx : ∀ x ∈ X, lastSaid size (msgs evs) x = some (some p)) :
    ((looking a0 request n size root).run evs).cp.working = false := by
  cases hw : ((looking a0 request n size root).run evs).cp.working with
  | false => rfl
  | true =>
    rw [looking_cp] at hw
    have := (Noted.run a0.cp n size root (msgs evs) hw).few p hp X hX hx
    omega

/-- What a node asks for when a message comes. -/
theorem asked_cases {a0 : Ask} {request : Bool} {n size root : Nat} {evs : List Ev} {x : Name} {m : Msg} {st en : Nat}
    (h : (((looking a0 request n size root).run evs).step (.msg x m)).sent =
      ((looking a0 request n size root).run evs).sent ++ [.askProof st en]) :
    ∃ d : Dict Name (Option Proof), (Dict.keys d).Nodup ∧
      (∀ y, Dict.get? d y = lastSaid size (msgs (evs ++ [.msg x m])) y) ∧
      (sortDesc (sizes size d))[getMaxFailures n]? = some en ∧ st = size ∧ size < en := by
  obtain ⟨hsz, hn⟩ := looking_size a0 request n size root evs
  have hcp := looking_cp a0 request n size root evs
  generalize (looking a0 request n size root).run evs = a at *
  have hne : a.sent ≠ a.sent ++ [Req.askProof st en] := by
    intro h; have := congrArg List.length h; simp at this
  cases m with
  | status s =>
    have e : a.step (.msg x (.status s)) = a.processStatus s x := rfl
    rw [e] at h
    unfold Ask.processStatus at h
    split at h
    · exact absurd h hne
    · split at h
      · have := List.append_cancel_left h
        simp at this
      · dsimp only at h
        split at h
        · exact absurd h hne
        · exact absurd h hne
  | proof p =>
    have e : a.step (.msg x (.proof p)) = a.processProof p x := rfl
    rw [e] at h
    rcases processProof_sent a p x with h' | ⟨hw, h1, h2, h', -⟩
    · rw [h'] at h; exact absurd h hne
    · rw [h'] at h
      have hnoted : Noted n size (msgs evs) a.cp := by
        rw [hcp] at hw ⊢; exact Noted.run a0.cp n size root _ hw
      have hs : says size (.proof p) = some (some p) := by
        simp only [says]; rw [if_pos ⟨by omega, h2⟩]
      refine ⟨a.cp.proofs.set x (some p), Dict.nodup_keys_set hnoted.keys _ _, ?_, ?_⟩
      · intro y; rw [msgs_snoc_msg]; exact hnoted.set hs y
      · unfold Ask.tryAsk at h
        split at h
        · exact absurd h hne
        · split at h
          · exact absurd h hne
          · split at h
            · exact absurd h hne
            · rename_i final hfin
              split at h
              · exact absurd h hne
              · rename_i hge
                have hreq := List.append_cancel_left h
                simp only [List.cons.injEq, Req.askProof.injEq, and_true] at hreq
                obtain ⟨q1, q2⟩ := hreq
                have hsz' : (a.note p x).cp.size = size := hsz
                have hn' : (a.note p x).cp.q.f = getMaxFailures n := by
                  show (Quorums.ofN a.cp.n).f = _
                  rw [hn]; rfl
                rw [hsz'] at q1 hge hfin
                rw [hn'] at hfin
                subst q2
                exact ⟨hfin, q1.symm, by omega⟩

/-- **C106** (what is asked for). When a message makes the node ask the others for proofs, it asks for
growth from its own size to a larger one, which at least `f+1` nodes claim to have reached and at most
`f` nodes claim to have passed. -/
theorem C106_asked_size (a0 : Ask) (request : Bool) (n size root : Nat) (evs : List Ev) (x : Name) (m : Msg)
    (st en : Nat)
    (h : (((looking a0 request n size root).run evs).step (.msg x m)).sent =
      ((looking a0 request n size root).run evs).sent ++ [.askProof st en]) :
    st = size ∧ size < en ∧
    (∃ X : List Name, X.Nodup ∧ getMaxFailures n + 1 ≤ X.length ∧
      ∀ y ∈ X, claimsMore size (msgs (evs ++ [.msg x m])) (en - 1) y) ∧
    (∀ Y : List Name, Y.Nodup → (∀ y ∈ Y, claimsMore size (msgs (evs ++ [.msg x m])) en y) →
      Y.length ≤ getMaxFailures n) := by
  obtain ⟨d, hk, hd, hs, h1, h2⟩ := asked_cases h
  obtain ⟨⟨X, x1, x2, x3⟩, hY⟩ := sizes_at hk hs h2
  refine ⟨h1, h2, ⟨X, x1, x2, ?_⟩, ?_⟩
  · intro y hy
    obtain ⟨p, hp, hle⟩ := x3 y hy
    rw [hd] at hp
    exact ⟨p, hp, by omega⟩
  · intro Y hYn hYc
    apply hY Y hYn
    intro y hy
    obtain ⟨p, hp, hlt⟩ := hYc y hy
    exact ⟨p, by rw [hd]; exact hp, hlt⟩

/-- **C106** (an honest node has it). If at most `f` nodes are dishonest, an honest node claims to have
what is asked for when a message comes. -/
theorem C106_honest_claim (a0 : Ask) (request : Bool) (n size root : Nat) (evs : List Ev) (x : Name) (m : Msg)
    (st en : Nat)
    (h : (((looking a0 request n size root).run evs).step (.msg x m)).sent =
      ((looking a0 request n size root).run evs).sent ++ [.askProof st en])
    (F : List Name) (hF : F.length ≤ getMaxFailures n) :
    ∃ y, y ∉ F ∧ claimsMore size (msgs (evs ++ [.msg x m])) (en - 1) y := by
  obtain ⟨-, -, ⟨X, x1, x2, x3⟩, -⟩ := C106_asked_size a0 request n size root evs x m st en h
  obtain ⟨y, hy, hyF⟩ := mem_of_length_lt (A := X) (B := F) x1 (by omega)
  exact ⟨y, hyF, x3 y hy⟩

/-! ### It asks -/

/-- What one event does to what was sent. -/
theorem step_asked (a : Ask) (e : Ev) :
    (∃ l, (a.step e).sent = a.sent ++ l) ∧
    ((a.step e).asked = a.asked ∨ ∃ en, a.cp.size < en ∧ Req.askProof a.cp.size en ∈ (a.step e).sent) := by
  have htry : ∀ b : Ask, (∃ l, b.tryAsk.sent = b.sent ++ l) ∧
      (b.tryAsk.asked = b.asked ∨ ∃ en, b.cp.size < en ∧ Req.askProof b.cp.size en ∈ b.tryAsk.sent) := by
    intro b
    unfold Ask.tryAsk
    split
    · exact ⟨⟨[], by simp⟩, .inl rfl⟩
    · split
      · exact ⟨⟨[], by simp⟩, .inl rfl⟩
      · split
        · exact ⟨⟨[], by simp⟩, .inl rfl⟩
        · split
          · exact ⟨⟨[], by simp⟩, .inl rfl⟩
          · rename_i final _ hge
            exact ⟨⟨_, rfl⟩, .inr ⟨final, by omega, List.mem_append_right _ (by simp)⟩⟩
  cases e with
  | msg x m =>
    cases m with
    | status st =>
      show (∃ l, (a.processStatus st x).sent = _) ∧ ((a.processStatus st x).asked = _ ∨ _)
      unfold Ask.processStatus
      split
      · exact ⟨⟨[], by simp⟩, .inl rfl⟩
      · split
        · exact ⟨⟨_, rfl⟩, .inl rfl⟩
        · dsimp only
          split
          · exact ⟨⟨[], by simp⟩, .inl rfl⟩
          · exact ⟨⟨[], by simp [Ask.cancel]⟩, .inl rfl⟩
    | proof p =>
      show (∃ l, (a.processProof p x).sent = _) ∧
        ((a.processProof p x).asked = _ ∨ ∃ en, _ ∧ _ ∈ (a.processProof p x).sent)
      unfold Ask.processProof
      split
      · exact ⟨⟨[], by simp⟩, .inl rfl⟩
      · split
        · exact ⟨⟨[], by simp⟩, .inl rfl⟩
        · split
          · exact ⟨⟨[], by simp⟩, .inl rfl⟩
          · dsimp only
            split
            · exact ⟨⟨[], by simp [Ask.cancel]⟩, .inl rfl⟩
            · obtain ⟨t1, t2⟩ := htry (a.note p x)
              change (∃ l, (a.note p x).tryAsk.sent = a.sent ++ l) at t1
              change ((a.note p x).tryAsk.asked = a.asked ∨ ∃ en, a.cp.size < en ∧ Req.askProof a.cp.size en ∈ (a.note p x).tryAsk.sent) at t2
              rw [show ({ a with cp := { a.cp with proofs := a.cp.proofs.set x (some p) } } : Ask) = a.note p x from rfl]
              generalize (a.note p x).tryAsk = b at t1 t2 ⊢
              rw [← sched_sent b] at t1 t2
              rw [← sched_asked b] at t2
              split
              · exact ⟨t1, t2⟩
              · exact ⟨t1, t2⟩
  | tickStatus =>
    show (∃ l, (a.tickStatus).sent = _) ∧ ((a.tickStatus).asked = _ ∨ _)
    unfold Ask.tickStatus
    split
    · exact ⟨⟨[], by simp⟩, .inl rfl⟩
    · exact ⟨⟨_, rfl⟩, .inl rfl⟩
  | tickProof =>
    show (∃ l, (a.tickProof).sent = _) ∧ ((a.tickProof).asked = _ ∨ _)
    unfold Ask.tickProof
    split
    · exact ⟨⟨[], by simp⟩, .inl rfl⟩
    · exact ⟨⟨_, rfl⟩, .inl rfl⟩
  | tickCp =>
    show (∃ l, (a.tickCp).sent = _) ∧ ((a.tickCp).asked = _ ∨ _)
    unfold Ask.tickCp
    split
    · exact ⟨⟨[], by simp⟩, .inl rfl⟩
    · dsimp only
      split
      · exact ⟨⟨[], by simp⟩, .inl rfl⟩
      · split
        · exact ⟨⟨[], by simp⟩, .inl rfl⟩
        · split
          · exact ⟨⟨[], by simp⟩, .inl rfl⟩
          · split
            · exact ⟨⟨[], by simp⟩, .inl rfl⟩
            · split
              · exact ⟨⟨[], by simp⟩, .inl rfl⟩
              · split
                · exact ⟨⟨[], by simp⟩, .inl rfl⟩
                · exact ⟨⟨_, rfl⟩, .inl rfl⟩

theorem asked_sent (a0 : Ask) (request : Bool) (n size root : Nat) (evs : List Ev) :
    ((looking a0 request n size root).run evs).asked = true →
    ∃ en, size < en ∧ Req.askProof size en ∈ ((looking a0 request n size root).run evs).sent := by
  induction evs using snoc_induction with
  | nil => intro h; exact absurd h (by simp [looking, Ask.run, Ask.start])
  | snoc evs e ih =>
    intro h
    rw [ConsAsk.run_snoc] at h ⊢
    have hsz := (looking_size a0 request n size root evs).1
    obtain ⟨⟨l, hl⟩, h2⟩ := step_asked ((looking a0 request n size root).run evs) e
    rw [hsz] at h2
    rcases h2 with h2 | h2
    · rw [h2] at h
      obtain ⟨en, e1, e2⟩ := ih h
      exact ⟨en, e1, by rw [hl]; exact List.mem_append_left _ e2⟩
    · exact h2

/-- **C106** (it asks, partial). A proof comes that counts, and the node still looks for a target. If by now
at least `n-f-1` nodes said something and at least `f+1` of them claim to have more than the node, it has
asked for proofs for one and the same size.

Partial: this is said of the moment a proof comes. If the last of the `n-f-1` sends a status, the node
does not ask before the timeout: `C106_status_last`; and it asks at most twice: `C106_stuck`. -/
theorem C106_asks_partial (a0 : Ask) (request : Bool) (n size root : Nat) (evs : List Ev) (x : Name) (p : Proof)
    (hp : p.seqStart ≤ size ∧ p.seqStart < p.seqEnd)
    (hw : ((looking a0 request n size root).run (evs ++ [.msg x (.proof p)])).cp.working = true)
    (Y : List Name) (hY : Y.Nodup) (hYl : n - getMaxFailures n - 1 ≤ Y.length)
    (hYs : ∀ y ∈ Y, lastSaid size (msgs (evs ++ [.msg x (.proof p)])) y ≠ none)
    (X : List Name) (hX : X.Nodup) (hXl : getMaxFailures n + 1 ≤ X.length)
    (hXs : ∀ y ∈ X, claimsMore size (msgs (evs ++ [.msg x (.proof p)])) size y) :
    ∃ en, size < en ∧
      Req.askProof size en ∈ ((looking a0 request n size root).run (evs ++ [.msg x (.proof p)])).sent := by
  apply asked_sent
  rw [ConsAsk.run_snoc] at hw ⊢
  obtain ⟨hsz, hn⟩ := looking_size a0 request n size root evs
  have hcp := looking_cp a0 request n size root evs
  generalize (looking a0 request n size root).run evs = a at *
  have e : a.step (.msg x (.proof p)) = a.processProof p x := rfl
  rw [e] at hw ⊢
  have hw0 : a.cp.working = true := by
    cases h : a.cp.working with
    | true => rfl
    | false =>
      rw [processProof_cp] at hw
      have := step_stopped a.cp (x, .proof p) h
      have e2 : a.cp.step (x, .proof p) = a.cp.processProof p x := rfl
      rw [e2] at this
      rw [this, h] at hw; cases hw
  have hnoted : Noted n size (msgs evs) a.cp := by
    rw [hcp] at hw0 ⊢; exact Noted.run a0.cp n size root _ hw0
  have hs : says size (.proof p) = some (some p) := by
    simp only [says]; rw [if_pos hp]
  have hd : ∀ y, (a.cp.proofs.set x (some p)).get? y = lastSaid size (msgs (evs ++ [.msg x (.proof p)])) y := by
    intro y; rw [msgs_snoc_msg]; exact hnoted.set hs y
  have htry : (a.note p x).tryAsk.asked = true := by
    cases ha : (a.note p x).asked with
    | true => unfold Ask.tryAsk; rw [if_pos ha, ha]
    | false =>
      have hsz' : (a.note p x).cp.size = size := hsz
      have hn' : (a.note p x).cp.q.f = getMaxFailures n := by
        show (Quorums.ofN a.cp.n).f = _
        rw [hn]; rfl
      have hn'' : (a.note p x).cp.q.n = n := by
        show (Quorums.ofN a.cp.n).n = _
        rw [hn]; rfl
      have hlen : n - getMaxFailures n - 1 ≤ (a.cp.proofs.set x (some p)).length := by
        refine Nat.le_trans hYl ?_
        rw [← length_keys]
        apply length_le_of_subset hY
        intro y hy
        rw [Dict.mem_keys]
        rw [hd]
        exact Option.ne_none_iff_exists'.1 (hYs y hy)
      have hne : a.cp.proofs.set x (some p) ≠ [] := by
        intro h0
        have := Dict.get?_set a.cp.proofs x (some p) x
        rw [h0, if_pos rfl] at this
        cases this
      obtain ⟨en, hen⟩ := tryAsk_in_range hne size hlen
      have hgt : size < en := by
        obtain ⟨-, h2⟩ := sortDesc_at hen
        rw [sizes_filter] at h2
        apply Classical.byContradiction
        intro hle
        have : X.length ≤ getMaxFailures n := by
          refine Nat.le_trans (length_le_of_subset hX ?_) h2
          intro y hy
          obtain ⟨q, hq, hlt⟩ := hXs y hy
          rw [← hd] at hq
          exact List.mem_map.2 ⟨(y, some q), List.mem_filter.2 ⟨Dict.mem_of_get? hq,
            decide_eq_true (show en < entrySize size (y, some q) from by show en < q.seqEnd; omega)⟩, rfl⟩
        omega
      unfold Ask.tryAsk
      rw [if_neg (by simp [ha]), hsz', hn', hn'', if_neg (show ¬ (a.note p x).cp.proofs.length < _ from by
        show ¬ (a.cp.proofs.set x (some p)).length < _; omega)]
      rw [show (a.note p x).cp.proofs = a.cp.proofs.set x (some p) from rfl, hen]
      dsimp only
      rw [if_neg (by omega)]
  -- the service has not finished, so `tryAsk` was reached
  unfold Ask.processProof at hw ⊢
  rw [if_neg (by simp [hw0]), if_neg (by omega), if_neg (by omega)] at hw ⊢
  dsimp only at hw ⊢
  split at hw
  · rw [finishNo_working] at hw; cases hw
  · rename_i hc
    rw [if_neg hc]
    rw [show ({ a with cp := { a.cp with proofs := a.cp.proofs.set x (some p) } } : Ask) = a.note p x from rfl]
    generalize (a.note p x).tryAsk = b at htry ⊢
    rw [← sched_asked b] at htry
    split
    · exact htry
    · exact htry

/-! ### Examples -/

/-- A proof of growth from 3 to the size given. -/
def growth (k : Nat) : Proof := ⟨3, k, 0, k, 77, 100 + k, [k]⟩

/-- Three of seven nodes have 10, 11 and 12 transactions and one has as many as the node; the last
one to say so sends a proof. The node asks for growth up to the third largest size, and decides when the
three nodes answer. -/
example :
    ((looking {} true 7 3 77).run
      [.msg 1 (.proof (growth 10)), .msg 2 (.status ⟨3, none, none, 77⟩), .msg 3 (.proof (growth 12)),
       .msg 4 (.status ⟨11, none, none, 7⟩), .msg 4 (.proof (growth 11))]).sent =
      [.askStatus none, .ownStatus [4], .askProof 3 10] ∧
    ((looking {} true 7 3 77).run
      [.msg 1 (.proof (growth 10)), .msg 2 (.status ⟨3, none, none, 77⟩), .msg 3 (.proof (growth 12)),
       .msg 4 (.status ⟨11, none, none, 7⟩), .msg 4 (.proof (growth 11)), .msg 3 (.proof (growth 10)),
       .msg 4 (.proof (growth 10))]).cp.out = [(some ⟨3, 10, 110⟩, [(1, 10), (3, 10), (4, 10)])] := by
  decide +kernel

/-- The hypotheses of `C106_asks_partial` are met there. -/
example :
    let evs : List Ev := [.msg 1 (.proof (growth 10)), .msg 2 (.status ⟨3, none, none, 77⟩), .msg 3 (.proof (growth 12))]
    ((looking {} true 7 3 77).run (evs ++ [.msg 4 (.proof (growth 11))])).cp.working = true ∧
    (∀ y ∈ [1, 2, 3, 4], lastSaid 3 (msgs (evs ++ [.msg 4 (.proof (growth 11))])) y ≠ none) ∧
    (∀ y ∈ [1, 3, 4], claimsMore 3 (msgs (evs ++ [.msg 4 (.proof (growth 11))])) 3 y) := by
  refine ⟨by decide +kernel, by decide +kernel, ?_⟩
  intro y hy
  simp only [List.mem_cons, List.not_mem_nil, or_false] at hy
  rcases hy with rfl | rfl | rfl
  · exact ⟨growth 10, by decide +kernel, by decide⟩
  · exact ⟨growth 12, by decide +kernel, by decide⟩
  · exact ⟨growth 11, by decide +kernel, by decide⟩

/-- **C106 fails** when the last one sends a status: in the same pool the same nodes say the same, but the one
that has as many transactions comes last. Three of the four claim to have more and nothing is asked for
before the timeout; then it is. -/
theorem C106_status_last :
    let evs : List Ev := [.msg 1 (.proof (growth 10)), .msg 3 (.proof (growth 12)), .msg 4 (.proof (growth 11)),
      .msg 2 (.status ⟨3, none, none, 77⟩)]
    ((looking {} true 7 3 77).run evs).cp.working = true ∧
    ((looking {} true 7 3 77).run evs).sent = [.askStatus none] ∧
    ((looking {} true 7 3 77).run (evs ++ [.tickCp])).sent = [.askStatus none, .askProof 3 12] := by
  decide +kernel

/-- Nothing but the timers and the answers of node 1. -/
def quietEv (e : Ev) : Prop :=
  e = .tickStatus ∨ e = .tickProof ∨ e = .tickCp ∨ e = .msg 1 (.proof (growth 10))

/-- What happened before in `C106_stuck`. -/
def stuckEvs : List Ev :=
  [.msg 1 (.proof (growth 10)), .msg 2 (.proof (growth 20)), .msg 3 (.proof (growth 5)),
   .msg 1 (.proof (growth 10)), .tickCp]

theorem quiet_step (a : Ask) (e : Ev) (h : quietEv e) (h1 : a.statusTimer = false) (h2 : a.proofTimer = false)
    (h3 : a.cpTimer = false) (h4 : a.step (.msg 1 (.proof (growth 10))) = a) : a.step e = a := by
  rcases h with rfl | rfl | rfl | rfl
  · show a.tickStatus = a; unfold Ask.tickStatus; rw [if_pos (by simp [h1])]
  · show a.tickProof = a; unfold Ask.tickProof; rw [if_pos (by simp [h2])]
  · show a.tickCp = a; unfold Ask.tickCp; rw [if_pos (by simp [h3])]
  · exact h4

/-- **C106 fails** with one dishonest node of four: node 1 has 10 transactions, node 3 is behind and has
5 so far, and node 2 says it has 20. The node asks for growth to 10, which only node 1 can answer as
yet, and at the timeout for growth to 20, which only node 2 claims to have. After that it never asks
for anything again, however long node 3 has had the 10 transactions, and goes on looking for a target
for ever. -/
theorem C106_stuck (later : List Ev) (h : ∀ e ∈ later, quietEv e) :
    let a := (looking { others := [1, 2, 3] } true 4 3 77).run (stuckEvs ++ later)
    a.cp.working = true ∧ a.sent = [.askStatus none, .askProof 3 10, .askProof 3 20] := by
  have hrun : ∀ b : Ask, b.statusTimer = false → b.proofTimer = false → b.cpTimer = false →
      b.step (.msg 1 (.proof (growth 10))) = b → b.run later = b := by
    intro b h1 h2 h3 h4
    induction later with
    | nil => rfl
    | cons e l ih =>
      have : b.run (e :: l) = (b.step e).run l := rfl
      rw [this, quiet_step b e (h e List.mem_cons_self) h1 h2 h3 h4]
      exact ih (fun e he => h e (List.mem_cons_of_mem _ he))
  have hsplit : (looking { others := [1, 2, 3] } true 4 3 77).run (stuckEvs ++ later) =
      ((looking { others := [1, 2, 3] } true 4 3 77).run stuckEvs).run later := by
    simp [Ask.run]
  have hb : ((looking { others := [1, 2, 3] } true 4 3 77).run stuckEvs).run later =
      (looking { others := [1, 2, 3] } true 4 3 77).run stuckEvs :=
    hrun _ (by decide +kernel) (by decide +kernel) (by decide +kernel) (by rfl)
  rw [hsplit, hb]
  decide +kernel

/-- One more answer of node 3 to the first question would be enough. -/
example :
    ((looking { others := [1, 2, 3] } true 4 3 77).run (stuckEvs ++ [.tickCp, .msg 3 (.proof (growth 10))])).cp.out =
      [(some ⟨3, 10, 110⟩, [(1, 10), (2, 20), (3, 10)])] := by
  decide +kernel

end Verif.Props
