import Verif.Spec.AskProp
import Verif.Proofs.Count
/-!
# C113: missing requests are asked for from the nodes that did not send them, and not twice in a row
-/
namespace Verif.Props
open Verif Verif.AskProp Verif.AskProp.Spec

theorem ask_trim (max : Nat) : ∀ l : List Digest, trim max l = l.drop (l.length - max)
  | [] => by simp [trim]
  | x :: r => by
    unfold trim
    split
    · rename_i h
      rw [ask_trim max r]
      simp only [List.length_cons] at h ⊢
      rw [show r.length + 1 - max = (r.length - max) + 1 from by omega, List.drop_succ_cons]
    · rename_i h
      simp only [List.length_cons] at h
      rw [show (x :: r).length - max = 0 from by simp; omega, List.drop_zero]

theorem ask_lately (k : Nat) (l : List Digest) (d : Digest) : d ∈ l.drop (l.length - k) ↔ Lately k l d := by
  constructor
  · intro h
    obtain ⟨a, b, hab⟩ := List.append_of_mem h
    refine ⟨l.take (l.length - k) ++ a, b, ?_, ?_⟩
    · rw [List.append_assoc, ← hab, List.take_append_drop]
    · have := congrArg List.length hab
      simp only [List.length_drop, List.length_append, List.length_cons] at this
      omega
  · rintro ⟨a, b, rfl, hb⟩
    have : (a ++ d :: b).length - k ≤ a.length := by simp; omega
    rw [List.drop_append_of_le_length this]
    simp

/-- What is remembered are the last max + 1 digests asked for. -/
def AskInv (max : Nat) (s : State) : Prop := s.requested = (asked s).drop ((asked s).length - (max + 1))

theorem ask_one (max : Nat) (e : Env) (s : State) (h : AskInv max s) (d : Digest) :
    AskInv max (s.one max e d) ∧
    (s.one max e d).sent = (if d ∈ s.requested then s.sent else s.sent ++ [(d, match e.senders d with
      | none => sendTo none
      | some p => sendTo (some (e.conns.filter (fun x => decide (x ∉ p)))))]) := by
  unfold State.one askOne
  by_cases hd : d ∈ s.requested
  · rw [if_pos hd, if_pos hd]
    exact ⟨h, rfl⟩
  · simp only [hd, if_false]
    refine ⟨?_, rfl⟩
    unfold AskInv at h ⊢
    simp only [remember]
    have hnd : d ∉ trim max s.requested := by
      rw [ask_trim]
      exact fun hm => hd (List.mem_of_mem_drop hm)
    rw [if_neg hnd, ask_trim]
    have hl : s.requested.length = min (asked s).length (max + 1) := by
      rw [h, List.length_drop]; omega
    simp only [asked, List.map_append, List.map_cons, List.map_nil] at h hl ⊢
    rw [h, List.drop_drop]
    rw [← h, hl]
    simp only [List.length_append, List.length_cons, List.length_nil]
    rw [List.drop_append_of_le_length (by omega)]
    congr 2
    omega

theorem ask_call (max : Nat) (e : Env) (ds : List Digest) : ∀ (s : State), AskInv max s →
    AskInv max (ds.foldl (State.one max e) s) := by
  induction ds with
  | nil => intro s h; exact h
  | cons d r ih => intro s h; exact ih _ (ask_one max e s h d).1

theorem ask_run (max : Nat) (h : List (Env × List Digest)) : AskInv max (AskProp.run max h) := by
  induction h using snoc_induction with
  | nil => simp [AskInv, AskProp.run, asked]
  | snoc h c ih =>
    rw [show AskProp.run max (h ++ [c]) = (AskProp.run max h).call max c from by simp [AskProp.run]]
    exact ask_call max c.1 c.2 _ ih

theorem ask_sent_one (max : Nat) (h : List (Env × List Digest)) (e : Env) (d : Digest) :
    (AskProp.run max (h ++ [(e, [d])])).sent = (if d ∈ (AskProp.run max h).requested then (AskProp.run max h).sent
      else (AskProp.run max h).sent ++ [(d, match e.senders d with
        | none => sendTo none
        | some p => sendTo (some (e.conns.filter (fun x => decide (x ∉ p)))))]) := by
  rw [show AskProp.run max (h ++ [(e, [d])]) = (AskProp.run max h).one max e d from by simp [AskProp.run, State.call]]
  exact (ask_one max e _ (ask_run max h) d).2

/-- C113. A digest that is not among the last max + 1 asked for is asked for, once: from all nodes if the request is not known,
and otherwise from just the connected nodes that did not send it, or from all if there is no such node. -/
theorem C113_asks (max : Nat) (h : List (Env × List Digest)) (e : Env) (d : Digest)
    (hd : ¬ Lately (max + 1) (asked (AskProp.run max h)) d) :
    ∃ to, (AskProp.run max (h ++ [(e, [d])])).sent = (AskProp.run max h).sent ++ [(d, to)] ∧
      (e.senders d = none → to = .all) ∧
      (∀ p, e.senders d = some p →
        ((∃ x, x ∈ e.conns ∧ x ∉ p) → ∃ l, to = .names l ∧ ∀ x, x ∈ l ↔ x ∈ e.conns ∧ x ∉ p) ∧
        ((∀ x ∈ e.conns, x ∈ p) → to = .all)) := by
  rw [← ask_lately, ← show (AskProp.run max h).requested = _ from ask_run max h] at hd
  rw [ask_sent_one, if_neg hd]
  refine ⟨_, rfl, ?_, ?_⟩
  · intro hn; rw [hn]; rfl
  · intro p hp
    rw [hp]
    simp only
    constructor
    · rintro ⟨x, hx, hxp⟩
      have hm : ∀ y, y ∈ e.conns.filter (fun x => decide (x ∉ p)) ↔ y ∈ e.conns ∧ y ∉ p := by
        intro y; rw [List.mem_filter, decide_eq_true_eq]
      cases hl : e.conns.filter (fun x => decide (x ∉ p)) with
      | nil => rw [hl] at hm; exact absurd ((hm x).2 ⟨hx, hxp⟩) (by simp)
      | cons a r => rw [hl] at hm; exact ⟨a :: r, rfl, hm⟩
    · intro ha
      have : e.conns.filter (fun x => decide (x ∉ p)) = [] := by
        rw [List.filter_eq_nil_iff]
        intro x hx
        simpa using ha x hx
      rw [this]
      rfl

/-- C113. A digest that is among the last max + 1 asked for is not asked for. -/
theorem C113_not_twice (max : Nat) (h : List (Env × List Digest)) (e : Env) (d : Digest)
    (hd : Lately (max + 1) (asked (AskProp.run max h)) d) :
    (AskProp.run max (h ++ [(e, [d])])).sent = (AskProp.run max h).sent := by
  rw [← ask_lately, ← show (AskProp.run max h).requested = _ from ask_run max h] at hd
  rw [ask_sent_one, if_pos hd]

/-- C113. A call with several digests is like calls with one after the other. -/
theorem C113_call (max : Nat) (h : List (Env × List Digest)) (e : Env) (ds : List Digest) :
    AskProp.run max (h ++ [(e, ds)]) = AskProp.run max (h ++ ds.map (fun d => (e, [d]))) := by
  simp only [AskProp.run, List.foldl_append, List.foldl_cons, List.foldl_nil, State.call, List.foldl_map]

theorem ask_nodup_fold (max : Nat) (e : Env) (ds : List Digest) : ∀ (s : State), AskInv max s →
    ((asked s).length ≤ max + 1 → (asked s).Nodup) →
    ((asked (ds.foldl (State.one max e) s)).length ≤ max + 1 → (asked (ds.foldl (State.one max e) s)).Nodup) := by
  induction ds with
  | nil => intro s _ h; exact h
  | cons d r ih =>
    intro s hi hn
    rw [List.foldl_cons]
    apply ih _ (ask_one max e s hi d).1
    have hs := (ask_one max e s hi d).2
    unfold asked at hn ⊢
    rw [hs]
    split
    · exact hn
    · rename_i hd
      rw [List.map_append, List.map_cons, List.map_nil]
      intro hl
      rw [List.length_append] at hl
      simp only [List.length_cons, List.length_nil] at hl
      have hr : s.requested = s.sent.map (·.1) := by
        unfold AskInv asked at hi
        rw [show (s.sent.map (·.1)).length - (max + 1) = 0 from by omega, List.drop_zero] at hi
        exact hi
      rw [List.nodup_append]
      refine ⟨hn (by omega), by simp, ?_⟩
      intro a ha b hb hab
      simp at hb
      subst hb hab
      exact hd (by rw [hr]; exact ha)

/-- C113. As long as no more than max + 1 messages were sent, no digest was asked for twice, whatever the calls. -/
theorem C113_once (max : Nat) (h : List (Env × List Digest)) (hl : (asked (AskProp.run max h)).length ≤ max + 1) :
    (asked (AskProp.run max h)).Nodup := by
  revert hl
  induction h using snoc_induction with
  | nil => intro _; exact List.nodup_nil
  | snoc h c ih =>
    rw [show AskProp.run max (h ++ [c]) = (AskProp.run max h).call max c from by simp [AskProp.run]]
    exact ask_nodup_fold max c.1 c.2 _ (ask_run max h) ih

/-- C113, the other side: there is no time after which a digest is asked for again. If the answers are lost, it is not asked
for again however often it is missed, until max + 1 others were asked for. -/
theorem C113_never_again (max : Nat) (h : List (Env × List Digest)) (d : Digest)
    (hd : Lately (max + 1) (asked (AskProp.run max h)) d) (es : List Env) :
    (AskProp.run max (h ++ es.map (fun e => (e, [d])))).sent = (AskProp.run max h).sent := by
  induction es using snoc_induction with
  | nil => simp
  | snoc es e ih =>
    rw [List.map_append, List.map_cons, List.map_nil, ← List.append_assoc, C113_not_twice, ih]
    unfold asked
    rw [ih]
    exact hd

/-- C113, the other side: if every connected node sent the request already, all of them are asked for it again. -/
theorem C113_asks_senders (max : Nat) (h : List (Env × List Digest)) (e : Env) (d : Digest) (p : List Name)
    (hd : d ∉ asked (AskProp.run max h)) (hp : e.senders d = some p) (ha : ∀ x ∈ e.conns, x ∈ p) :
    (AskProp.run max (h ++ [(e, [d])])).sent = (AskProp.run max h).sent ++ [(d, .all)] := by
  have hn : ¬ Lately (max + 1) (asked (AskProp.run max h)) d := by
    rintro ⟨a, b, hab, _⟩
    exact hd (by rw [hab]; simp)
  obtain ⟨to, h1, _, h3⟩ := C113_asks max h e d hn
  rw [h1, (h3 p hp).2 ha]

/-! ## Cases -/

/-- Digest 1 is known, and node 10 sent it; digest 2 is known, and all sent it. -/
def askEnv : Env := ⟨fun d => if d = 1 then some [10] else if d = 2 then some [10, 11, 12] else none, [10, 11, 12]⟩

example : (AskProp.run 1 [(askEnv, [1, 2]), (askEnv, [2, 1, 3]), (askEnv, [2, 1])]).sent
    = [(1, .names [11, 12]), (2, .all), (3, .all), (1, .names [11, 12])] := by decide

example : Lately 2 [1, 2, 3] 2 ∧ ¬ Lately 2 [1, 2, 3] 1 := by
  refine ⟨⟨[1], [3], rfl, by decide⟩, ?_⟩
  rw [← ask_lately]
  decide

end Verif.Props
