import Verif.Proofs.ClientSend
/-!
# C86: messages to clients are sent at most once, in order, and none is lost without a reason

For any limits of at least one, any history of messages, resends and removals, and whatever the socket does.
-/
namespace Verif.Props
open Verif.ClientSend Verif.Spec.ClientSend

variable {c : Config} (hc : 1 ≤ c.clients) (hm : 1 ≤ c.messages)
include hc hm

/-- **C86.** No exception gets out, and each message asked to be sent to a client is, once: taken by the socket for this
client, given up, or still kept for it. Nothing else is ever sent. -/
theorem client_messages_accounted (evs : List Ev) :
    ∃ s, run c evs = some s ∧ ∀ i, (sentTo s i ++ lost s i ++ kept s i).Perm (given evs i) := by
  obtain ⟨s, h1, -, h3⟩ := run_inv hc hm evs
  refine ⟨s, h1, fun i => ?_⟩
  rw [sentTo_eq, lost_eq, kept_eq]
  exact ((taken_lost_perm _).append_right _).trans (h3 i)

/-- **C86.** What is kept is bounded. -/
theorem client_messages_bounded (evs : List Ev) :
    ∃ s, run c evs = some s ∧ s.pending.length ≤ c.clients ∧ s.pending.keys.Nodup ∧
      ∀ i l, s.pending.get? i = some l → l ≠ [] ∧ l.length ≤ c.messages := by
  obtain ⟨s, h1, h2, -⟩ := run_inv hc hm evs
  refine ⟨s, h1, h2.clients, h2.good.nodup, fun i l hl => ⟨h2.good.ne i l hl, ?_⟩⟩
  have := h2.messages i
  simpa [view, hl] using this

/-- **C86**, the part that holds. If the clock does not run backwards and the socket, within one call, takes no more
messages for a client after it has put one off, then messages reach each client in the order they were sent, and those
still kept come after them. Without this there is no order (`client_order_lost`). -/
theorem client_order_partial (evs : List Ev) (ht : (evs.map time).Pairwise (· ≤ ·)) (hst : ∀ e ∈ evs, Steady e) :
    ∃ s, run c evs = some s ∧ ∀ i, (sentTo s i ++ kept s i).Sublist (given evs i) := by
  obtain ⟨s, h1, -, h3, -⟩ := run_order hc hm evs ht hst
  refine ⟨s, h1, fun i => ?_⟩
  rw [sentTo_eq, kept_eq]
  exact h3 i

/-- **C86.** A message is sent: the caller learns whether the socket took this message. If the socket takes everything,
all that was kept for this client and the message are sent, in order, and nothing is kept for it; only the oldest one is
lost, if there were as many as the limit allows. -/
theorem client_flush (evs : List Ev) (now : Nat) (i : Id) (m : Msg) :
    ∃ s s', run c evs = some s ∧ transmit c now i m (fun _ => .sent) s = some (s', true) ∧ kept s' i = [] ∧
      (((kept s i).length < c.messages ∧ sentTo s' i = sentTo s i ++ kept s i ++ [m] ∧ lost s' i = lost s i) ∨
        ((kept s i).length = c.messages ∧ sentTo s' i = sentTo s i ++ (kept s i).tail ++ [m] ∧
          lost s' i = lost s i ++ (kept s i).take 1)) := by
  obtain ⟨s, h1, h2, -⟩ := run_inv hc hm evs
  obtain ⟨s', fs, l, gone, g1, -, -, g4, g5, g6, g7, -⟩ := transmit_spec hc hm h2 now i m (fun _ => .sent)
  have hp := purge_flush (fate := fun _ => Outcome.fate .sent) (due := fun _ => true) (fun _ => rfl) (f := .sent)
    (fun _ => rfl) l 0
  rw [hp] at g6 g7
  refine ⟨s, s', h1, ?_, ?_, ?_⟩
  · rw [g1]; simp
  · rw [kept_eq, g7]; rfl
  · have e1 : sentTo s' i = sentTo s i ++ l.map Prod.snd := by
      rw [sentTo_eq, sentTo_eq, g4 i, g6, taken_append, taken_append, taken_evicted, List.nil_append]
      congr 1
      unfold taken
      rw [List.filterMap_map]
      simp [Function.comp_def]
    have e2 : lost s' i = lost s i ++ gone.map Prod.snd := by
      rw [lost_eq, lost_eq, g4 i, g6, List.filterMap_append, List.filterMap_append]
      congr 1
      have a : (l.map (fun e => (Fate.sent, e.2))).filterMap (fun x => if x.1 ≠ .sent then some x.2 else none) =
          ([] : List Msg) := by
        rw [List.filterMap_eq_nil_iff]
        intro x hx
        obtain ⟨y, -, rfl⟩ := List.mem_map.1 hx
        simp
      rw [a, List.append_nil, List.filterMap_map]
      simp [Function.comp_def]
    have hlen := h2.messages i
    rcases g5 with ⟨z, a, b⟩ | ⟨a, b, d⟩
    · left
      refine ⟨?_, ?_, ?_⟩
      · rw [kept_eq, List.length_map]
        simp at z
        omega
      · rw [e1, a, List.map_append, kept_eq, List.append_assoc]; rfl
      · rw [e2, b]; simp
    · right
      have hk : (kept s i).length = c.messages := by
        rw [kept_eq, List.length_map]
        simp at a
        exact a
      have hne : view s.pending i ≠ [] := by
        intro h0
        rw [kept_eq, h0] at hk
        simp at hk
        omega
      refine ⟨hk, ?_, ?_⟩
      · rw [e1, b, kept_eq, List.tail_append_of_ne_nil hne, List.map_append, List.map_tail, List.append_assoc]; rfl
      · rw [e2, d, kept_eq]
        cases hv : view s.pending i with
        | nil => exact absurd hv hne
        | cons x xs => rfl

/-- **C86.** The caller learns what became of this message, not of those kept before it: its attempt comes after theirs.
If the socket took it, it is the last one sent to the client. -/
theorem client_result (evs : List Ev) (now : Nat) (i : Id) (m : Msg) (out : Nat → Outcome) :
    ∃ s s' b, run c evs = some s ∧ transmit c now i m out s = some (s', b) ∧
      (b = true ↔ out (min (kept s i).length (c.messages - 1)) = .sent) ∧
      (b = true → (sentTo s' i).getLast? = some m) := by
  obtain ⟨s, h1, h2, -⟩ := run_inv hc hm evs
  obtain ⟨s', fs, l, gone, g1, -, -, g4, g5, g6, g7, -⟩ := transmit_spec hc hm h2 now i m out
  have hlen : (kept s i).length = (view s.pending i).length := by rw [kept_eq, List.length_map]
  have hl : ∃ l0, l = l0 ++ [(now, m)] ∧ l0.length = min (kept s i).length (c.messages - 1) := by
    rcases g5 with ⟨z, a, -⟩ | ⟨a, b, -⟩
    · refine ⟨_, a, ?_⟩
      simp at z
      omega
    · simp at a
      have hne : view s.pending i ≠ [] := by
        intro h0
        rw [h0] at a
        simp at a
        omega
      rw [List.tail_append_of_ne_nil hne] at b
      refine ⟨_, b, ?_⟩
      rw [List.length_tail]
      omega
  obtain ⟨l0, e1, e2⟩ := hl
  have e3 : l.length - 1 = min (kept s i).length (c.messages - 1) := by rw [e1, ← e2]; simp
  refine ⟨s, s', _, h1, g1, ?_, fun hb => ?_⟩
  · rw [e3]; simp
  · rw [e3] at hb
    have hb := of_decide_eq_true hb
    have hf : (fun n => (out n).fate) (0 + l0.length) = some .sent := by
      simp only [Nat.zero_add, e2, hb]; rfl
    obtain ⟨fs', hfs⟩ := purge_last (fate := fun n => (out n).fate) (now, m) l0 0 l hf
    rw [← e1] at hfs
    rw [sentTo_eq, g4 i, g6, hfs, taken_append, taken_append, taken_append]
    show (_ ++ (_ ++ (_ ++ [m]))).getLast? = some m
    simp

/-- **C86.** When a message is sent to one client, nothing changes for another, unless as many clients as the limit allows
have messages kept for them, this one has none, and the other is the one that has waited longest: its messages are lost. -/
theorem client_others (evs : List Ev) (now : Nat) (i : Id) (m : Msg) (out : Nat → Outcome) (j : Id) (hj : j ≠ i) :
    ∃ s s' b, run c evs = some s ∧ transmit c now i m out s = some (s', b) ∧ sentTo s' j = sentTo s j ∧
      ((lost s' j = lost s j ∧ kept s' j = kept s j) ∨
        (kept s i = [] ∧ s.pending.length = c.clients ∧ s.pending.keys.head? = some j ∧
          lost s' j = lost s j ++ kept s j ∧ kept s' j = [])) := by
  obtain ⟨s, h1, h2, -⟩ := run_inv hc hm evs
  obtain ⟨s', fs, l, gone, g1, -, -, g4, -, -, -, g8⟩ := transmit_spec hc hm h2 now i m out
  refine ⟨s, s', _, h1, g1, ?_, ?_⟩
  · rw [sentTo_eq, sentTo_eq, g4 j, taken_append]
    rcases g8 j hj with ⟨a, -⟩ | ⟨-, -, -, a, -⟩
    · rw [a]; exact List.append_nil _
    · rw [a, taken_evicted, List.append_nil]
  · rcases g8 j hj with ⟨a, b⟩ | ⟨a, b, ⟨l, d⟩, e, f⟩
    · left
      rw [lost_eq, lost_eq, g4 j, a, kept_eq, kept_eq, b, List.append_nil]
      exact ⟨rfl, rfl⟩
    · right
      refine ⟨?_, b, ?_, ?_, ?_⟩
      · rw [kept_eq]; simp [view, a]
      · unfold Dict.keys
        rw [List.head?_map, d]; rfl
      · rw [lost_eq, lost_eq, g4 j, e, List.filterMap_append, kept_eq, List.filterMap_map]
        simp [Function.comp_def]
      · rw [kept_eq, f]; rfl

/-- **C86.** As long as the socket takes messages or puts them off, and fewer messages than the limit are kept for the
client, sending one loses none of them. -/
theorem client_send_keeps (evs : List Ev) (now : Nat) (i : Id) (m : Msg) (out : Nat → Outcome)
    (ho : ∀ n, out n ≠ .failed) :
    ∃ s s' b, run c evs = some s ∧ transmit c now i m out s = some (s', b) ∧
      ((kept s i).length < c.messages → lost s' i = lost s i ∧
        (sentTo s' i ++ kept s' i).Perm (sentTo s i ++ kept s i ++ [m])) := by
  obtain ⟨s, h1, h2, -⟩ := run_inv hc hm evs
  obtain ⟨s', fs, l, gone, g1, -, -, g4, g5, g6, g7, -⟩ := transmit_spec hc hm h2 now i m out
  refine ⟨s, s', _, h1, g1, fun hk => ?_⟩
  rw [kept_eq, List.length_map] at hk
  rcases g5 with ⟨-, a, b⟩ | ⟨a, -, -⟩
  · subst a b
    rw [List.map_nil, List.nil_append] at g6
    have hP := purge_fates (fate := fun n => (out n).fate) (due := fun _ => true) (P := fun f => f = .sent)
      (view s.pending i ++ [(now, m)]) 0 (view s.pending i ++ [(now, m)]) (by
        intro k f _ hf
        have := ho k
        cases hk : out k with
        | sent => rw [hk] at hf; cases hf; rfl
        | failed => exact absurd hk this
        | again => rw [hk] at hf; cases hf)
    rw [← g6] at hP
    have hl : (fs i).filterMap (fun x => if x.1 ≠ .sent then some x.2 else none) = ([] : List Msg) := by
      rw [List.filterMap_eq_nil_iff]
      intro x hx
      simp [hP x hx]
    have ht : taken (fs i) = (fs i).map Prod.snd := by
      exact taken_all hP
    refine ⟨?_, ?_⟩
    · rw [lost_eq, lost_eq, g4 i, List.filterMap_append, hl, List.append_nil]
    · rw [sentTo_eq, sentTo_eq, kept_eq, kept_eq, g4 i, taken_append, ht, List.append_assoc, List.append_assoc]
      apply List.Perm.append_left
      rw [g6, g7]
      have := (purge_moves (fun n => (out n).fate) (fun _ => true) (view s.pending i ++ [(now, m)])).perm
      rw [List.map_append (l₁ := view s.pending i)] at this
      exact this
  · simp at a; omega

/-- **C86.** Messages are removed for their age when they are at least `remove` seconds old, and then they are. -/
theorem client_expiry (evs : List Ev) (now : Nat) :
    ∃ s s', run c evs = some s ∧ removeOld c now s = some s' ∧ ∀ i,
      (s'.pending.get? i).getD [] = ((s.pending.get? i).getD []).filter (fun e => now - e.1 < c.remove) ∧
      lost s' i = lost s i ++ (((s.pending.get? i).getD []).filter (fun e => c.remove ≤ now - e.1)).map Prod.snd ∧
      sentTo s' i = sentTo s i := by
  obtain ⟨s, h1, h2, -⟩ := run_inv hc hm evs
  obtain ⟨s', fs, g1, g2, g3⟩ := dropAll_moved h2 (fun _ _ => some .expired) c.remove now (.removeOld now)
    (fun _ => rfl) (fun _ i n k _ hn => by cases hn)
  refine ⟨s, s', h1, g1, fun i => ?_⟩
  have hg := g3 i
  rw [show purge (fun _ => some Fate.expired) (fun e => decide (c.remove ≤ now - e.1)) 0 (view s.pending i)
    (view s.pending i) = _ from purge_const (view s.pending i) [] 0 (fun _ h => by cases h)] at hg
  have e1 := congrArg Prod.fst hg
  have e2 := congrArg Prod.snd hg
  simp only [List.nil_append] at e1 e2
  refine ⟨?_, ?_, ?_⟩
  · show view s'.pending i = (view s.pending i).filter _
    rw [e1]
    apply List.filter_congr
    intro x _
    by_cases h : c.remove ≤ now - x.1 <;> simp [h] <;> omega
  · rw [lost_eq, lost_eq, g2.log i, List.filterMap_append, e2, List.filterMap_map]
    congr 1
    show _ = List.map Prod.snd ((view s.pending i).filter _)
    simp [Function.comp_def]
  · rw [sentTo_eq, sentTo_eq, g2.log i, taken_append, e2]
    refine Eq.trans (congrArg _ (taken_nil_of ?_)) (List.append_nil _)
    intro x hx
    obtain ⟨y, -, rfl⟩ := List.mem_map.1 hx
    exact nofun

/-- **C86.** When messages are sent again and the socket takes them, exactly those at least `resend` seconds old are sent,
in order. -/
theorem client_resend (evs : List Ev) (now : Nat) :
    ∃ s s', run c evs = some s ∧ resend c now (fun _ _ => .sent) s = some s' ∧ ∀ i,
      (s'.pending.get? i).getD [] = ((s.pending.get? i).getD []).filter (fun e => now - e.1 < c.resend) ∧
      sentTo s' i = sentTo s i ++ (((s.pending.get? i).getD []).filter (fun e => c.resend ≤ now - e.1)).map Prod.snd ∧
      lost s' i = lost s i := by
  obtain ⟨s, h1, h2, -⟩ := run_inv hc hm evs
  obtain ⟨s', fs, g1, g2, g3⟩ := dropAll_moved h2 (fun _ _ => some .sent) c.resend now (.resend now (fun _ _ => .sent))
    (fun _ => rfl) (fun _ i n k _ hn => by cases hn)
  refine ⟨s, s', h1, g1, fun i => ?_⟩
  have hg := g3 i
  rw [show purge (fun _ => some Fate.sent) (fun e => decide (c.resend ≤ now - e.1)) 0 (view s.pending i)
    (view s.pending i) = _ from purge_const (view s.pending i) [] 0 (fun _ h => by cases h)] at hg
  have e1 := congrArg Prod.fst hg
  have e2 := congrArg Prod.snd hg
  simp only [List.nil_append] at e1 e2
  refine ⟨?_, ?_, ?_⟩
  · show view s'.pending i = (view s.pending i).filter _
    rw [e1]
    apply List.filter_congr
    intro x _
    by_cases h : c.resend ≤ now - x.1 <;> simp [h] <;> omega
  · rw [sentTo_eq, sentTo_eq, g2.log i, taken_append, e2]
    congr 1
    show taken (((view s.pending i).filter _).map _) = List.map Prod.snd ((view s.pending i).filter _)
    unfold taken
    rw [List.filterMap_map]
    simp [Function.comp_def]
  · rw [lost_eq, lost_eq, g2.log i, List.filterMap_append, e2]
    refine Eq.trans (congrArg _ ?_) (List.append_nil _)
    rw [List.filterMap_eq_nil_iff]
    intro x hx
    obtain ⟨y, -, rfl⟩ := List.mem_map.1 hx
    simp

omit hc hm

/-! ## Where the code falls short, and cases that meet the hypotheses -/

/-- Two messages for one client; the socket is busy at the first attempt and takes the rest. -/
def busyOnce : List Ev :=
  [.transmit 0 [1] [10] (fun _ => .again), .transmit 1 [1] [11] (fun n => if n = 0 then .again else .sent),
   .resend 30 (fun _ _ => .sent)]

/-- **C86**, where the code falls short. If the socket puts off one message, those behind it are sent all the same: the
client gets the second message before the first. -/
theorem client_order_lost :
    given busyOnce [1] = [[10], [11]] ∧ (run {} busyOnce).map (fun s => sentTo s [1]) = some [[11], [10]] := by
  decide +kernel

/-- A client whose message is put off, and then a hundred others, unreachable. -/
def crowd : List Ev :=
  .transmit 0 [0] [10] (fun _ => .again) ::
    (List.range 100).map (fun n => .transmit 1 [UInt8.ofNat (n + 1)] [11] (fun _ => .again))

/-- **C86**, where the code falls short. The message kept for one client is lost because of others: one hundred connections
that are gone are enough. -/
theorem client_crowded_out :
    (run {} crowd).map (fun s => (lost s [0], kept s [0])) = some ([[10]], []) := by
  decide +kernel

/-- The hypotheses of the order theorem hold for a history in which messages are put off, sent again, lost and too old. -/
def steadyCase : List Ev :=
  [.transmit 0 [1] [10] (fun _ => .again), .transmit 1 [2] [20] (fun _ => .again), .transmit 2 [1] [11] (fun _ => .again),
   .resend 31 (fun i n => if i = [1] ∧ n = 0 then .sent else .again), .transmit 40 [1] [12] (fun n => if n = 0 then .failed else .sent),
   .transmit 41 [1] [13] (fun _ => .again), .removeOld 301]

example : (steadyCase.map time).Pairwise (· ≤ ·) ∧ (∀ e ∈ steadyCase, Steady e) ∧
    (run {} steadyCase).map (fun s => (sentTo s [1], lost s [1], kept s [1], lost s [2])) =
      some ([[10], [12]], [[11]], [[13]], [[20]]) := by
  refine ⟨by decide +kernel, ?_, by decide +kernel⟩
  intro e he
  simp only [steadyCase, List.mem_cons, List.not_mem_nil, or_false] at he
  rcases he with rfl | rfl | rfl | rfl | rfl | rfl | rfl
  · intro n k _ _ h; cases h
  · intro n k _ _ h; cases h
  · intro n k _ _ h; cases h
  · intro i n k hnk h h'
    simp only at h h'
    split at h'
    · next hk =>
      have : n = 0 := by omega
      rw [if_pos ⟨hk.1, this⟩] at h; cases h
    · cases h'
  · intro n k _ h h'
    simp only at h
    split at h <;> cases h
  · intro n k _ _ h; cases h
  · trivial

end Verif.Props
