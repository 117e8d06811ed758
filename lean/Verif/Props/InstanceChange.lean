import Verif.Proofs.InstanceChangeEnough
/-!
# C24, C25: votes for a view change

Statements are about runs of the view change trigger of one node on any list of
events, restarts included; InstanceChange messages are arbitrary.
-/
namespace Verif.Props

open Verif.IC

/-! ## C24 -/

/-- **C24**, the quorum. Whatever happened before, an event starts a view change
to `v` only if at least `n - f` distinct nodes voted for `v` so far: an
InstanceChange for `v` arrived from each, or, for the node itself, it sent one. -/
theorem C24_quorum (cfg : Cfg) (evs : List Event) (e : Event) :
    ∃ l, (run cfg (evs ++ [e])).started = (run cfg evs).started ++ l ∧
      ∀ v ∈ l, ∃ Q : List Node, Q.Nodup ∧ cfg.n - getMaxFailures cfg.n ≤ Q.length ∧
        ∀ w ∈ Q, ∃ pre x post, evs ++ [e] = pre ++ x :: post ∧
          ((∃ r, x = .ic v r w) ∨ (w = cfg.name ∧ (run cfg (pre ++ [x])).sent = (run cfg pre).sent ++ [v])) := by
  obtain ⟨-, l, a, b⟩ := (RInv.run cfg evs).step e
  refine ⟨l, a, fun v hv => ?_⟩
  obtain ⟨Q, h1, h2, h3⟩ := b v hv
  refine ⟨Q, h1, h2, fun w hw => ?_⟩
  obtain ⟨ts, ⟨pre, x, post, he, hx, -⟩, -⟩ := h3 w hw
  exact ⟨pre, x, post, he, hx⟩

/-- **C24**, the window, if the clock never goes back at a restart: of the votes
of those `n - f` nodes, none is older than the configured interval. Missing for
the full claim: a restart after which the clock starts again
(`C24_old_votes_counted`). -/
theorem C24_window_partial (cfg : Cfg) (hi : 0 < cfg.interval) (evs : List Event) (e : Event)
    (hc : ∀ pre c post, evs ++ [e] = pre ++ .restart c :: post → (run cfg pre).clock ≤ c) :
    ∃ l, (run cfg (evs ++ [e])).started = (run cfg evs).started ++ l ∧
      ∀ v ∈ l, ∃ Q : List Node, Q.Nodup ∧ cfg.n - getMaxFailures cfg.n ≤ Q.length ∧
        ∀ w ∈ Q, ∃ pre x post, evs ++ [e] = pre ++ x :: post ∧ elapsed post ≤ cfg.interval ∧
          ((∃ r, x = .ic v r w) ∨ (w = cfg.name ∧ (run cfg (pre ++ [x])).sent = (run cfg pre).sent ++ [v])) := by
  obtain ⟨-, l, a, b⟩ := (RInv.run cfg evs).step e
  refine ⟨l, a, fun v hv => ?_⟩
  obtain ⟨Q, h1, h2, h3⟩ := b v hv
  refine ⟨Q, h1, h2, fun w hw => ?_⟩
  obtain ⟨ts, ⟨pre, x, post, he, hx, ht⟩, hw⟩ := h3 w hw
  refine ⟨pre, x, post, he, ?_, hx⟩
  have := ht hc
  have := hw hi
  omega

namespace OldVotes

def cfg : Cfg := ⟨0, 4, 7200⟩

/-- Two votes; a day later the node is restarted after a reboot of its machine,
and the clock starts again from 10; one more vote. -/
def evs : List Event := [.setConnected [1, 2, 3], .tick 1000, .ic 1 25 1, .ic 1 25 2, .tick 86400, .restart 10]

/-- The same with the votes in time. -/
def evs2 : List Event := [.setConnected [1, 2, 3], .tick 1000, .ic 1 25 1, .tick 7000, .restart 8005, .ic 1 25 2]

/-- Votes that are too old. -/
def evs3 : List Event := [.setConnected [1, 2, 3], .tick 1000, .ic 1 25 1, .tick 7201, .restart 8205, .ic 1 25 2]

end OldVotes

/-- **C24 does not hold of the code.** Votes are stored with the time of a clock
that starts again when the machine does (`time.perf_counter`), so votes a day old
count. -/
theorem C24_old_votes_counted : ∃ (cfg : Cfg) (evs : List Event) (e : Event), cfg.n = 4 ∧ cfg.interval = 7200 ∧
    (run cfg (evs ++ [e])).started = (run cfg evs).started ++ [1] ∧
    (∀ pre x post, evs ++ [e] = pre ++ x :: post → (∃ r w, x = .ic 1 r w) → x ≠ e → 86400 ≤ elapsed post) := by
  refine ⟨OldVotes.cfg, OldVotes.evs, .ic 1 25 3, rfl, rfl, by decide, ?_⟩
  intro pre x post h ⟨r, w, hx⟩ hne
  subst hx
  have key : ∀ (l pre : List Event), l ++ [.ic 1 25 3] = pre ++ .ic 1 r w :: post →
      l = OldVotes.evs → 86400 ≤ elapsed post := by
    intro l pre h hl
    subst hl
    match pre, h with
    | [], h => simp [OldVotes.evs] at h
    | [_], h => simp [OldVotes.evs] at h
    | [_, _], h => simp [OldVotes.evs] at h; obtain ⟨-, -, -, h⟩ := h; subst h; decide
    | [_, _, _], h => simp [OldVotes.evs] at h; obtain ⟨-, -, -, -, h⟩ := h; subst h; decide
    | [_, _, _, _], h => simp [OldVotes.evs] at h
    | [_, _, _, _, _], h => simp [OldVotes.evs] at h
    | [_, _, _, _, _, _], h =>
      simp [OldVotes.evs] at h
      obtain ⟨-, -, -, -, -, -, ⟨rfl, rfl⟩, -⟩ := h
      exact absurd rfl hne
    | _ :: _ :: _ :: _ :: _ :: _ :: _ :: t, h =>
      have := congrArg List.length h
      simp [OldVotes.evs] at this
  exact key _ pre h rfl

example : (run OldVotes.cfg (OldVotes.evs2 ++ [.ic 1 25 3])).started = [1] := by decide
example : (run OldVotes.cfg (OldVotes.evs3 ++ [.ic 1 25 3])).started = [] := by decide
/-- One node voting three times. -/
example : (run OldVotes.cfg [.setConnected [1, 2, 3], .ic 1 25 1, .ic 1 25 1, .ic 1 25 1]).started = [] := by decide
/-- The node's own vote counts. -/
example : (run OldVotes.cfg [.setConnected [1, 2, 3], .setDegraded true, .ic 1 25 1, .ic 1 25 2]).started = [1] := by decide

/-- **C24**, the other way: enough votes start it. If `n - f` distinct nodes voted for `v` in a span of time not longer than
the configured interval, and the node takes their votes (the voter is connected, the node takes part and is in a view before
`v`; or it is the node's own), then it is in `v`, or beyond, afterwards. Partial: for voters that have not voted for `v`
before (`C24_renewal_ignored`), with views that are never set back (`C24_deaf`), and with a clock that a restart does not
move on. -/
theorem C24_enough_partial (cfg : Cfg) (hn : 0 < cfg.n) (evs more : List Event) (v : Nat) (Q : List Node) (hQ : Q.Nodup)
    (hlen : cfg.n - getMaxFailures cfg.n ≤ Q.length)
    (hview : ∀ pre x b post, evs ++ more = pre ++ .setView x b :: post → (run cfg pre).view ≤ x)
    (hclock : ∀ pre c post, more = pre ++ .restart c :: post → c ≤ (run cfg (evs ++ pre)).clock)
    (htime : elapsed more ≤ cfg.interval)
    (hnew : ∀ w ∈ Q, ∀ pre x post, evs = pre ++ x :: post → (∀ r, x ≠ .ic v r w) ∧
      (w = cfg.name → (run cfg (pre ++ [x])).sent ≠ (run cfg pre).sent ++ [v]))
    (hvotes : ∀ w ∈ Q, ∃ pre x post, more = pre ++ x :: post ∧
      ((∃ r, x = .ic v r w ∧ w ∈ (run cfg (evs ++ pre)).connected ∧ (run cfg (evs ++ pre)).participating = true ∧
        (run cfg (evs ++ pre)).view < v) ∨
       (w = cfg.name ∧ (run cfg (evs ++ pre ++ [x])).sent = (run cfg (evs ++ pre)).sent ++ [v]))) :
    v ≤ (run cfg (evs ++ more)).view := by
  refine enough cfg hn evs more v Q hQ hlen hview hclock (.inr htime) (fun w hw x hx => ?_) (fun w hw => ?_)
  · have hk : ∃ votes, (run cfg evs).cache.get? v = some votes ∧ (w, x) ∈ votes := by
      unfold kn at hx
      cases hg : (run cfg evs).cache.get? v with
      | none => rw [hg] at hx; exact (nomatch hx)
      | some votes => rw [hg] at hx; exact ⟨votes, rfl, hx⟩
    obtain ⟨votes, hg, hm⟩ := hk
    obtain ⟨pre, e, post, he, hc, _⟩ := (RInv.run cfg evs).all v votes hg (w, x) hm
    obtain ⟨h1, h2⟩ := hnew w hw pre e post he
    rcases hc with ⟨r, hr⟩ | ⟨ho, hs⟩
    · exact h1 r hr
    · exact h2 ho hs
  · obtain ⟨pre, x, post, hp, h⟩ := hvotes w hw
    refine ⟨pre, x, post, hp, h.imp id (fun ⟨a, b⟩ => ⟨a, ?_⟩)⟩
    rw [run_snoc] at b
    exact b

/-- Three votes in less than two hours, with a restart. -/
example : (run OldVotes.cfg OldVotes.evs2).view = 0 ∧ 1 ≤ (run OldVotes.cfg (OldVotes.evs2 ++ [.ic 1 25 3])).view := by decide
example : 1 ≤ (run OldVotes.cfg ([.setConnected [1, 2, 3]] ++ [.ic 1 25 1, .tick 7000, .ic 1 25 2, .tick 200, .vote false 25 none])).view := by
  refine C24_enough_partial OldVotes.cfg (by decide) _ _ 1 [0, 1, 2] (by decide) (by decide) ?_ ?_ (by decide) ?_ ?_
  · intro pre x b post h
    have : Event.setView x b ∈ pre ++ Event.setView x b :: post := by simp
    rw [← h] at this
    simp at this
  · intro pre c post h
    have : Event.restart c ∈ pre ++ Event.restart c :: post := by simp
    rw [← h] at this
    simp at this
  · intro w hw pre x post h
    match pre, h with
    | [], h =>
      simp at h
      obtain ⟨rfl, rfl⟩ := h
      exact ⟨fun r => Event.noConfusion, fun _ => by decide⟩
    | _ :: _, h => simp at h
  · intro w hw
    simp only [List.mem_cons, List.not_mem_nil, or_false] at hw
    rcases hw with rfl | rfl | rfl
    · exact ⟨[.ic 1 25 1, .tick 7000, .ic 1 25 2, .tick 200], .vote false 25 none, [], rfl, .inr ⟨rfl, by decide⟩⟩
    · exact ⟨[], .ic 1 25 1, _, rfl, .inl ⟨25, rfl, by decide, by decide, by decide⟩⟩
    · exact ⟨[.ic 1 25 1, .tick 7000], .ic 1 25 2, _, rfl, .inl ⟨25, rfl, by decide, by decide, by decide⟩⟩

/-- **C24 does not hold of the code**: a vote that is sent again does not count anew. Node 1 votes, and again nearly two hours
later; 10 seconds after this, and so within the interval, there are votes of the nodes 2 and 3 too; and no view change. -/
theorem C24_renewal_ignored : ∃ evs more : List Event, elapsed more = 20 ∧
    (∀ w ∈ [1, 2, 3], ∃ pre x post, more = pre ++ x :: post ∧ x = .ic 1 25 w ∧ w ∈ (run OldVotes.cfg (evs ++ pre)).connected ∧
      (run OldVotes.cfg (evs ++ pre)).participating = true ∧ (run OldVotes.cfg (evs ++ pre)).view < 1) ∧
    (run OldVotes.cfg (evs ++ more)).view = 0 ∧ (run OldVotes.cfg (evs ++ more)).started = [] := by
  refine ⟨[.setConnected [1, 2, 3], .ic 1 25 1, .tick 7190], [.ic 1 25 1, .tick 20, .ic 1 25 2, .ic 1 25 3], rfl, ?_, by decide, by decide⟩
  intro w hw
  simp only [List.mem_cons, List.not_mem_nil, or_false] at hw
  rcases hw with rfl | rfl | rfl
  · exact ⟨[], _, _, rfl, rfl, by decide, by decide, by decide⟩
  · exact ⟨[.ic 1 25 1, .tick 20], _, _, rfl, rfl, by decide, by decide, by decide⟩
  · exact ⟨[.ic 1 25 1, .tick 20, .ic 1 25 2], _, _, rfl, rfl, by decide, by decide, by decide⟩

/-- After a view change to 1, and back. -/
def OldVotes.back (c : Nat) : State :=
  { cache := [(1, [(1, ⟨0, 25⟩), (2, ⟨0, 25⟩), (3, ⟨0, 25⟩)])], db := [(1, [(1, ⟨0, 25⟩), (2, ⟨0, 25⟩), (3, ⟨0, 25⟩)])],
    clock := c, connected := [1, 2, 3], started := [1] }

theorem OldVotes.back_ic (i c : Nat) (hc : c ≤ i) (w : Node) (hw : w ∈ [1, 2, 3]) :
    (OldVotes.back c).step ⟨0, 4, i⟩ (.ic 1 25 w) = OldVotes.back c := by
  have hu : updateVotes [(1, [(1, ⟨0, 25⟩), (2, ⟨0, 25⟩), (3, ⟨0, 25⟩)])] i c 1 =
      ⟨[(1, [(1, ⟨0, 25⟩), (2, ⟨0, 25⟩), (3, ⟨0, 25⟩)])], []⟩ := by
    have ho : outdated i c ⟨0, 25⟩ = false := by simp [outdated]; omega
    simp [updateVotes, Dict.get?, ho]
  have hf : ∀ v, (OldVotes.back c).hasFrom ⟨0, 4, i⟩ 1 v = (OldVotes.back c, Dict.has (α := Vote) [(1, ⟨0, 25⟩), (2, ⟨0, 25⟩), (3, ⟨0, 25⟩)] v) := by
    intro v
    simp only [State.hasFrom, OldVotes.back, hu, State.effect, List.foldl_nil, Dict.get?, if_true]
  have hon : (OldVotes.back c).onVerified ⟨0, 4, i⟩ 1 25 w = OldVotes.back c := by
    unfold State.onVerified
    rw [hf]
    dsimp only
    simp only [List.mem_cons, List.not_mem_nil, or_false] at hw
    rcases hw with rfl | rfl | rfl <;> rfl
  show State.processIC ⟨0, 4, i⟩ (OldVotes.back c) 1 25 w = _
  unfold State.processIC
  rw [if_neg (fun h => h hw), if_neg (by simp [OldVotes.back]), if_neg (by simp [OldVotes.back])]
  dsimp only
  rw [hon, hf]
  rfl

/-- **C24 does not hold of the code**: with all other nodes voting for the view 1, again and again, the node does not go there.
It was in that view change, and a catchup that ended meanwhile has set its view back to 0; the votes are known, and a vote that is
known does nothing. However often they vote, as long as the first votes are not outdated. -/
theorem C24_deaf (interval k : Nat) (hk : 30 * k ≤ interval) :
    let cfg : Cfg := ⟨0, 4, interval⟩
    let votes : List Event := [.tick 30, .ic 1 25 1, .ic 1 25 2, .ic 1 25 3]
    let evs : List Event := [.setConnected [1, 2, 3], .ic 1 25 1, .ic 1 25 2, .ic 1 25 3, .setView 0 false]
    (run cfg (evs ++ (List.replicate k votes).flatten)).view = 0 ∧
    (run cfg (evs ++ (List.replicate k votes).flatten)).started = [1] := by
  dsimp only
  have h0 : run ⟨0, 4, interval⟩ [.setConnected [1, 2, 3], .ic 1 25 1, .ic 1 25 2, .ic 1 25 3, .setView 0 false] = OldVotes.back 0 := by
    have hu : ∀ c v, updateVotes c interval 0 v = ⟨c, []⟩ := by
      intro c v
      unfold updateVotes
      split
      · rfl
      · rw [if_neg (c := (List.any _ _ = true)) (by simp [outdated])]
        simp
    simp [run, State.step, State.processIC, State.onVerified, State.hasFrom, State.tryStart, State.hasQuorum, hu, State.effect, addVote,
      cacheAdd, Dict.get?, Dict.set, Dict.has, dbFromCache, applyWrite, Quorums.ofN, getMaxFailures, OldVotes.back]
  have key : ∀ k c, c + 30 * k ≤ interval →
      (List.replicate k [.tick 30, .ic 1 25 1, .ic 1 25 2, .ic 1 25 3]).flatten.foldl (State.step ⟨0, 4, interval⟩) (OldVotes.back c) =
        OldVotes.back (c + 30 * k) := by
    intro k
    induction k with
    | zero => intro c _; rfl
    | succ k ih =>
      intro c hc
      rw [List.replicate_succ, List.flatten_cons, List.foldl_append]
      have h1 : List.foldl (State.step ⟨0, 4, interval⟩) (OldVotes.back c) [.tick 30, .ic 1 25 1, .ic 1 25 2, .ic 1 25 3] = OldVotes.back (c + 30) := by
        simp only [List.foldl_cons, List.foldl_nil]
        rw [show (OldVotes.back c).step ⟨0, 4, interval⟩ (.tick 30) = OldVotes.back (c + 30) from rfl,
          OldVotes.back_ic interval _ (by omega) 1 (by decide), OldVotes.back_ic interval _ (by omega) 2 (by decide),
          OldVotes.back_ic interval _ (by omega) 3 (by decide)]
      rw [h1, ih _ (by omega), show c + 30 + 30 * k = c + 30 * (k + 1) by omega]
  have : run ⟨0, 4, interval⟩ ([.setConnected [1, 2, 3], .ic 1 25 1, .ic 1 25 2, .ic 1 25 3, .setView 0 false] ++
      (List.replicate k [.tick 30, .ic 1 25 1, .ic 1 25 2, .ic 1 25 3]).flatten) = OldVotes.back (0 + 30 * k) := by
    unfold run at h0 ⊢
    rw [List.foldl_append, h0, key k 0 (by omega)]
  rw [this]
  exact ⟨rfl, rfl⟩

/-! ## C25 -/

/-- The votes a provider knows for a view. -/
def known (c : Dict Nat Votes) (v : Nat) : Votes := (c.get? v).getD []

/-- **C25**: after any history, restarting changes no vote. -/
theorem C25_restart_keeps_votes (cfg : Cfg) (evs : List Event) (c v : Nat) :
    known (run cfg (evs ++ [.restart c])).cache v = known (run cfg evs).cache v := by
  have h := (RInv.run cfg evs).sync
  rw [run_snoc]
  simp only [State.step, known]
  rw [fillCache_eq h.wdb, h.eq v]

/-- An operation on the votes. -/
inductive Op (cfg : Cfg) (s : State) : Effect → Prop
  | add (v r : Nat) (w : Node) : Op cfg s (addVote s.cache s.clock v r w)
  | expire (v : Nat) : Op cfg s (updateVotes s.cache cfg.interval s.clock v)
  | remove (v : Nat) : Op cfg s (removeView s.cache v)

/-- **C25**, a crash inside an operation: if only the first `k` writes of an
operation reach the database, then after the restart the votes for each view are
those before the operation, or those after it. -/
theorem C25_crash_inside (cfg : Cfg) (evs : List Event) (op : Effect) (h : Op cfg (run cfg evs) op) (k v : Nat) :
    known (fillCache ((op.writes.take k).foldl applyWrite (run cfg evs).db)) v = known (run cfg evs).cache v ∨
    known (fillCache ((op.writes.take k).foldl applyWrite (run cfg evs).db)) v = known op.cache v := by
  have hs := (RInv.run cfg evs).sync
  revert h hs
  generalize run cfg evs = s
  intro h hs
  have one : ∀ (op : Effect), Sync op.cache (op.writes.foldl applyWrite s.db) → op.writes.length ≤ 1 →
      known (fillCache ((op.writes.take k).foldl applyWrite s.db)) v = known s.cache v ∨
      known (fillCache ((op.writes.take k).foldl applyWrite s.db)) v = known op.cache v := by
    intro op h1 hl
    cases k with
    | zero =>
      left
      simp only [List.take_zero, List.foldl_nil, known]
      rw [fillCache_eq hs.wdb, hs.eq v]
    | succ k =>
      right
      rw [List.take_of_length_le (by omega)]
      simp only [known]
      rw [fillCache_eq h1.wdb, h1.eq v]
  cases h with
  | add v' r w => exact one _ (hs.addVote _ _ _ _) (Nat.le_refl _)
  | expire v' =>
    refine one _ (hs.updateVotes _ _ _) ?_
    rcases updateVotes_cases s.cache cfg.interval s.clock v' with h | ⟨-, -, h, -⟩
    · rw [h]; exact Nat.zero_le _
    · rw [h]; exact Nat.le_refl _
  | remove v' =>
    have hr := hs.removeView v'
    simp only [removeView, ← List.map_take] at hr ⊢
    simp only [known]
    rw [fillCache_eq (WF.eraseAll _ hs.wdb), get?_eraseAll]
    split
    · next hm =>
      right
      have := (List.mem_filter.1 (List.mem_of_mem_take hm)).2
      rw [Dict.get?_filter s.cache (fun k => !decide (k ≤ v')) v, if_neg (by simpa using this)]
    · left
      rw [hs.eq v]

example : known (run OldVotes.cfg OldVotes.evs).cache 1 = [(1, ⟨1000, 25⟩), (2, ⟨1000, 25⟩)] := by decide

end Verif.Props
