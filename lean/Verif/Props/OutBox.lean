import Verif.Spec.OutBox
import Verif.Proofs.Count
/-!
# C114: what the instances send comes out, in order, and no instance keeps another one waiting
-/
namespace Verif.Props
open Verif Verif.OutBox Verif.OutBox.Spec

theorem obx_putOf_append (i : Inst) (a b : List Ev) : putOf i (a ++ b) = putOf i a ++ putOf i b := by
  induction a with
  | nil => rfl
  | cons e r ih =>
    cases e with
    | put j m => simp only [List.cons_append, putOf]; split <;> simp [ih]
    | service l => simpa [putOf] using ih
    | takeOrdered => simpa [putOf] using ih

theorem obx_outOf_append (i : Inst) (a b : List (Inst × Msg)) : outOf i (a ++ b) = outOf i a ++ outOf i b := by
  induction a with
  | nil => rfl
  | cons e r ih =>
    obtain ⟨j, m⟩ := e
    simp only [List.cons_append, outOf]
    split <;> simp [ih]

theorem obx_outOf_map (i j : Inst) (l : List Msg) : outOf i (l.map (fun m => (j, m))) = if j = i then l else [] := by
  induction l with
  | nil => simp [outOf]
  | cons m r ih =>
    simp only [List.map_cons, outOf, ih]
    split <;> simp_all

/-- What comes out of all boxes is, for an instance, what comes out of its own. -/
theorem obx_outOf_flatMap (f : List Msg → List Msg) (boxes : List (Inst × List Msg)) (hn : (boxes.map (·.1)).Nodup)
    {i : Inst} {b : List Msg} (hb : (i, b) ∈ boxes) :
    outOf i (boxes.flatMap (fun p => (f p.2).map (fun m => (p.1, m)))) = f b := by
  induction boxes with
  | nil => cases hb
  | cons p r ih =>
    rw [List.map_cons, List.nodup_cons] at hn
    rw [List.flatMap_cons, obx_outOf_append, obx_outOf_map]
    rcases List.mem_cons.1 hb with h | h
    · subst h
      have : ∀ r : List (Inst × List Msg), i ∉ r.map (·.1) →
          outOf i (r.flatMap (fun p => (f p.2).map (fun m => (p.1, m)))) = [] := by
        intro r
        induction r with
        | nil => intro _; rfl
        | cons q r ihr =>
          intro hq
          rw [List.map_cons, List.mem_cons, not_or] at hq
          rw [List.flatMap_cons, obx_outOf_append, obx_outOf_map, ihr hq.2, if_neg (fun e => hq.1 e.symm)]
          rfl
      rw [this r hn.1]
      simp
    · have hne : p.1 ≠ i := fun e => hn.1 (List.mem_map.2 ⟨(i, b), h, e.symm⟩)
      rw [if_neg hne, ih hn.2 h]
      rfl

theorem obx_drain (p : Nat) (hp : 1 ≤ p) : ∀ (l : List Msg) (num : Nat), num < p →
    drain (some p) num l = (l.take (p - num), l.drop (p - num))
  | [], num, _ => by simp [drain]
  | m :: r, num, hnum => by
    unfold drain
    by_cases h : num + 1 ≥ p
    · simp only
      rw [if_pos ⟨by omega, h⟩, show p - num = 1 from by omega]
      rfl
    · simp only
      rw [if_neg (fun e => h e.2), obx_drain p hp r (num + 1) (by omega), show p - num = (p - (num + 1)) + 1 from by omega]
      rfl

theorem obx_drain_all : ∀ (l : List Msg) (num : Nat), drain none num l = (l, [])
  | [], _ => rfl
  | m :: r, num => by simp [drain, obx_drain_all r]

theorem obx_per_pos (l num : Nat) : ∃ p, perReplica (some l) num = some p ∧ 1 ≤ p := by
  refine ⟨_, rfl, ?_⟩
  split <;> omega

theorem obx_drain_append (limit : Option Nat) (num : Nat) (b : List Msg) :
    (drain (perReplica limit num) 0 b).1 ++ (drain (perReplica limit num) 0 b).2 = b ∧
    (b ≠ [] → (drain (perReplica limit num) 0 b).1 ≠ []) := by
  cases limit with
  | none => simp [perReplica, obx_drain_all]
  | some l =>
    obtain ⟨p, hp, h1⟩ := obx_per_pos l num
    rw [hp, obx_drain p h1 b 0 (by omega)]
    refine ⟨by simp, ?_⟩
    intro hb
    cases b with
    | nil => exact absurd rfl hb
    | cons m r =>
      simp only
      rw [show p - 0 = (p - 1) + 1 from by omega]
      simp

theorem obx_run_snoc (insts : List Inst) (h : List Ev) (e : Ev) :
    OutBox.run insts (h ++ [e]) = (OutBox.run insts h).step e := by simp [OutBox.run]

theorem obx_keys (insts : List Inst) (h : List Ev) : (OutBox.run insts h).boxes.map (·.1) = insts := by
  induction h using snoc_induction with
  | nil =>
    simp only [OutBox.run, OutBox.init, List.foldl_nil, List.map_map]
    exact List.map_id' insts
  | snoc h e ih =>
    rw [obx_run_snoc]
    cases e with
    | put i m =>
      simp only [State.step, State.put, List.map_map]
      refine Eq.trans ?_ ih
      apply List.map_congr_left
      intro p _
      simp only [Function.comp]
      split <;> rfl
    | service l => simp only [State.step, State.service, List.map_map]; exact ih
    | takeOrdered => simp only [State.step, State.takeOrdered, List.map_map]; exact ih

theorem obx_nodup {insts : List Inst} (hn : insts.Nodup) (h : List Ev) :
    ((OutBox.run insts h).boxes.map (·.1)).Nodup := by rw [obx_keys]; exact hn

/-- What comes out of a box at an event. -/
def obxGone (num : Nat) (b0 : List Msg) : Ev → List Msg
  | .put _ _ => []
  | .service l => (drain (perReplica l num) 0 b0).1
  | .takeOrdered => b0.filter (fun m => m.isOrdered)

/-- What is in a box after an event. -/
def obxLeft (i : Inst) (num : Nat) (b0 : List Msg) : Ev → List Msg
  | .put j m => if j = i then b0 ++ [m] else b0
  | .service l => (drain (perReplica l num) 0 b0).2
  | .takeOrdered => b0.filter (fun m => !m.isOrdered)

/-- The box of an instance after one more event. -/
theorem obx_box_step {s : State} (hn : (s.boxes.map (·.1)).Nodup) {e : Ev} {i : Inst} {b : List Msg}
    (hb : (i, b) ∈ (s.step e).boxes) :
    ∃ b0, (i, b0) ∈ s.boxes ∧ outOf i (s.step e).out = outOf i s.out ++ obxGone s.boxes.length b0 e ∧
      b = obxLeft i s.boxes.length b0 e := by
  cases e with
  | put j m =>
    simp only [State.step, State.put] at hb
    obtain ⟨⟨k, b0⟩, hm, he⟩ := List.mem_map.1 hb
    simp only at he
    by_cases hk : k = j
    · rw [if_pos hk] at he
      cases he
      exact ⟨b0, hm, by simp [State.step, State.put, obxGone], by simp [hk, obxLeft]⟩
    · rw [if_neg hk] at he
      cases he
      exact ⟨b, hm, by simp [State.step, State.put, obxGone], (if_neg (fun e : j = i => hk e.symm)).symm⟩
  | service l =>
    simp only [State.step, State.service] at hb
    obtain ⟨⟨k, b0⟩, hm, he⟩ := List.mem_map.1 hb
    cases he
    refine ⟨b0, hm, ?_, rfl⟩
    simp only [State.step, State.service, obx_outOf_append, obxGone]
    rw [obx_outOf_flatMap (fun l' => (drain (perReplica l s.boxes.length) 0 l').1) s.boxes hn hm]
  | takeOrdered =>
    simp only [State.step, State.takeOrdered] at hb
    obtain ⟨⟨k, b0⟩, hm, he⟩ := List.mem_map.1 hb
    cases he
    refine ⟨b0, hm, ?_, rfl⟩
    simp only [State.step, State.takeOrdered, obx_outOf_append, obxGone]
    rw [obx_outOf_flatMap (fun l' => l'.filter (fun m => m.isOrdered)) s.boxes hn hm]

/-- C114. As long as nothing is taken out of turn, the messages of an instance come out in the order in which it put them in;
those that did not come out are in its box; none is lost or taken twice, whatever the limits. -/
theorem C114_in_order {insts : List Inst} (hn : insts.Nodup) (h : List Ev) (ht : .takeOrdered ∉ h) {i : Inst} {b : List Msg}
    (hb : (i, b) ∈ (OutBox.run insts h).boxes) : outOf i (OutBox.run insts h).out ++ b = putOf i h := by
  induction h using snoc_induction generalizing b with
  | nil =>
    simp only [OutBox.run, OutBox.init, List.foldl_nil, List.mem_map] at hb
    obtain ⟨j, _, hj⟩ := hb
    cases hj
    rfl
  | snoc h e ih =>
    rw [obx_run_snoc] at hb ⊢
    obtain ⟨b0, hm, ho, hb'⟩ := obx_box_step (obx_nodup hn h) hb
    have := ih (fun hx => ht (by simp [hx])) hm
    rw [ho, hb', obx_putOf_append, ← this]
    cases e with
    | put j m =>
      simp only [putOf, obxGone, obxLeft]
      split <;> simp
    | service l =>
      simp only [putOf, obxGone, obxLeft, List.append_nil, List.append_assoc]
      rw [(obx_drain_append l _ b0).1]
    | takeOrdered => exact absurd (by simp) ht

/-- C114. Also when ordered batches are taken out of turn, the batches of an instance come out in their order, and so do its
other messages; none is lost or taken twice. -/
theorem C114_kinds {insts : List Inst} (hn : insts.Nodup) (h : List Ev) {i : Inst} {b : List Msg}
    (hb : (i, b) ∈ (OutBox.run insts h).boxes) (k : Bool) :
    (outOf i (OutBox.run insts h).out).filter (fun m => m.isOrdered == k) ++ b.filter (fun m => m.isOrdered == k)
      = (putOf i h).filter (fun m => m.isOrdered == k) := by
  induction h using snoc_induction generalizing b with
  | nil =>
    simp only [OutBox.run, OutBox.init, List.foldl_nil, List.mem_map] at hb
    obtain ⟨j, _, hj⟩ := hb
    cases hj
    rfl
  | snoc h e ih =>
    rw [obx_run_snoc] at hb ⊢
    obtain ⟨b0, hm, ho, hb'⟩ := obx_box_step (obx_nodup hn h) hb
    have := ih hm
    rw [ho, hb', obx_putOf_append, List.filter_append, List.filter_append, ← this]
    cases e with
    | put j m =>
      simp only [putOf, obxGone, obxLeft]
      split <;> simp
    | service l =>
      simp only [putOf, obxGone, obxLeft, List.filter_nil, List.append_nil, List.append_assoc]
      rw [← List.filter_append, (obx_drain_append l _ b0).1]
    | takeOrdered =>
      simp only [putOf, obxGone, obxLeft, List.filter_nil, List.append_nil, List.append_assoc, List.append_cancel_left_eq]
      rw [List.filter_filter, List.filter_filter]
      cases k with
      | true =>
        have h1 : (b0.filter fun m => (m.isOrdered == true) && !m.isOrdered) = [] := by
          rw [List.filter_eq_nil_iff]; intro m _; cases m.isOrdered <;> simp
        rw [h1, List.append_nil]
        apply List.filter_congr
        intro m _
        cases m.isOrdered <;> rfl
      | false =>
        have h1 : (b0.filter fun m => (m.isOrdered == false) && m.isOrdered) = [] := by
          rw [List.filter_eq_nil_iff]; intro m _; cases m.isOrdered <;> simp
        rw [h1, List.nil_append]
        apply List.filter_congr
        intro m _
        cases m.isOrdered <;> rfl

/-- C114. No instance keeps another one waiting: whatever the limits and whatever is put in meanwhile, at each turn every
instance gets at least one of its messages out, as long as it has any; so a message is out after as many turns as there were
messages of its instance up to it. -/
theorem C114_fair {insts : List Inst} (hn : insts.Nodup) (h h' : List Ev) (ht : .takeOrdered ∉ h ++ h') {i : Inst}
    (hi : i ∈ insts) :
    min ((putOf i h).length) ((outOf i (OutBox.run insts h).out).length + turns h')
      ≤ (outOf i (OutBox.run insts (h ++ h')).out).length := by
  induction h' using snoc_induction with
  | nil => simp only [turns, List.append_nil]; omega
  | snoc r e ih =>
    rw [← List.append_assoc] at ht ⊢
    have ih := ih (fun hx => ht (by simp only [List.mem_append] at hx ⊢; exact .inl hx))
    have hturn : turns (r ++ [e]) = turns r + turns [e] := by
      have : ∀ a b : List Ev, turns (a ++ b) = turns a + turns b := by
        intro a b
        induction a with
        | nil => simp [turns]
        | cons x a iha => cases x <;> simp [turns, iha] <;> omega
      exact this r [e]
    obtain ⟨⟨j, b⟩, hb, hj⟩ : ∃ p ∈ (OutBox.run insts (h ++ r ++ [e])).boxes, p.1 = i := by
      have := obx_keys insts (h ++ r ++ [e])
      rw [← this] at hi
      obtain ⟨p, hp, hpi⟩ := List.mem_map.1 hi
      exact ⟨p, hp, hpi⟩
    simp only at hj
    subst hj
    rw [obx_run_snoc] at hb ⊢
    obtain ⟨b0, hm, ho, _⟩ := obx_box_step (obx_nodup hn (h ++ r)) hb
    rw [ho, hturn, List.length_append]
    cases e with
    | put k m => simp only [turns, obxGone, List.length_nil]; omega
    | takeOrdered => exact absurd (by simp) ht
    | service l =>
      simp only [turns, obxGone]
      have hfifo := C114_in_order hn (h ++ r) (fun hx => ht (by simp only [List.mem_append] at hx ⊢; exact .inl hx)) hm
      have hlen := congrArg List.length hfifo
      rw [obx_putOf_append, List.length_append, List.length_append] at hlen
      by_cases hb0 : b0 = []
      · subst hb0
        simp only [List.length_nil] at hlen
        omega
      · have h1 := (obx_drain_append l (OutBox.run insts (h ++ r)).boxes.length b0).2 hb0
        have h2 : 1 ≤ (drain (perReplica l (OutBox.run insts (h ++ r)).boxes.length) 0 b0).1.length := by
          cases hx : (drain (perReplica l (OutBox.run insts (h ++ r)).boxes.length) 0 b0).1 with
          | nil => exact absurd hx h1
          | cons _ _ => simp
        omega

/-- C114. Without a limit, all boxes are emptied. -/
theorem C114_no_limit {insts : List Inst} (h : List Ev) {i : Inst} {b : List Msg}
    (hb : (i, b) ∈ (OutBox.run insts (h ++ [.service none])).boxes) : b = [] := by
  rw [obx_run_snoc] at hb
  simp only [State.step, State.service, perReplica, obx_drain_all] at hb
  obtain ⟨p, _, he⟩ := List.mem_map.1 hb
  cases he
  rfl

theorem obx_round_le (l num : Nat) (hnum : 1 ≤ num) : num * roundDiv l num ≤ l + num := by
  unfold roundDiv
  have h1 : num * (l / num) + l % num = l := Nat.div_add_mod l num
  have h2 : num * (l / num + 1) = num * (l / num) + num := by rw [Nat.mul_add, Nat.mul_one]
  simp only
  split
  · omega
  · split
    · omega
    · split <;> omega

/-- C114. A turn with a limit takes out no more than the limit and one for each instance. -/
theorem C114_limit {insts : List Inst} (hi : insts ≠ []) (h : List Ev) (l : Nat) :
    (OutBox.run insts (h ++ [.service (some l)])).out.length
      ≤ (OutBox.run insts h).out.length + l + insts.length := by
  rw [obx_run_snoc]
  simp only [State.step, State.service, List.length_append]
  have hlen : (OutBox.run insts h).boxes.length = insts.length := by
    have := congrArg List.length (obx_keys insts h)
    simpa using this
  have hpos : 1 ≤ insts.length := by cases insts with
    | nil => exact absurd rfl hi
    | cons _ _ => simp
  obtain ⟨p, hp, h1⟩ := obx_per_pos l insts.length
  rw [hlen, hp]
  have hbound : insts.length * p ≤ l + insts.length := by
    simp only [perReplica, Option.some.injEq] at hp
    split at hp
    · subst hp; omega
    · subst hp; exact obx_round_le l _ hpos
  have hsum : ∀ boxes : List (Inst × List Msg),
      (boxes.flatMap (fun q => (drain (some p) 0 q.2).1.map (fun m => (q.1, m)))).length ≤ boxes.length * p := by
    intro boxes
    induction boxes with
    | nil => simp
    | cons q r ih =>
      rw [List.flatMap_cons, List.length_append, List.length_map, obx_drain p h1 q.2 0 (by omega), List.length_cons,
        Nat.add_mul, Nat.one_mul]
      have : (q.2.take (p - 0)).length ≤ p := by simp; omega
      simp only
      omega
  have := hsum (OutBox.run insts h).boxes
  rw [hlen] at this
  omega

/-- C114, the other side: the limit is not kept: the share of an instance is rounded, also up, and is never less than one. With
two instances that have two messages each, a limit of three lets four through; with a limit of 0 each instance gets one out. -/
theorem C114_over_limit {i j : Inst} (hij : i ≠ j) (m : Msg) :
    (OutBox.run [i, j] [.put i m, .put i m, .put j m, .put j m, .service (some 3)]).out.length = 4 ∧
    (OutBox.run [i, j] [.put i m, .put j m, .service (some 0)]).out.length = 2 := by
  have hji : ¬ j = i := fun e => hij e.symm
  constructor <;>
    simp [OutBox.run, OutBox.init, State.step, State.put, State.service, perReplica, roundDiv, drain, hij, hji]

/-! ## Cases -/

def obxHist : List Ev :=
  [.put 0 (.other 1), .put 0 (.ordered 2), .put 1 (.ordered 3), .put 0 (.other 4), .service (some 2), .put 0 (.ordered 5)]

example : (OutBox.run [0, 1] obxHist).out = [(0, .other 1), (1, .ordered 3)] ∧
    (OutBox.run [0, 1] obxHist).boxes = [(0, [.ordered 2, .other 4, .ordered 5]), (1, [])] ∧
    (OutBox.run [0, 1] (obxHist ++ [.takeOrdered])).boxes = [(0, [.other 4]), (1, [])] ∧
    (OutBox.run [0, 1] (obxHist ++ [.takeOrdered])).out
      = [(0, .other 1), (1, .ordered 3), (0, .ordered 2), (0, .ordered 5)] ∧
    .takeOrdered ∉ obxHist := by decide

/-- Python: round(0.5) = 0, round(1.5) = 2, round(2.5) = 2, round(7 / 3) = 2, round(8 / 3) = 3. -/
example : roundDiv 1 2 = 0 ∧ roundDiv 3 2 = 2 ∧ roundDiv 5 2 = 2 ∧ roundDiv 7 3 = 2 ∧ roundDiv 8 3 = 3 := by decide

end Verif.Props
