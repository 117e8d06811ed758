import Verif.Spec.Batched
import Verif.Model.Batched
/-!
# C44: batching of outgoing messages
-/
namespace Verif.Props
open Verif Verif.Spec Verif.Batched

section Split
variable (pack : List Bytes → Bytes) (limit : Nat)

/-- A message alone is within the limit. -/
private abbrev Short (m : Bytes) : Prop := m.length ≤ limit

theorem makeBatch_wire {g : List Bytes} (h : g ≠ []) : makeBatch pack g = some (wire pack g) := by
  match g with
  | [] => exact absurd rfl h
  | [m] => rfl
  | a :: b :: r => rfl

/-- State of the inner loop. -/
private structure Filling (fb : List Bytes) (batch : Bytes) : Prop where
  empty : fb = [] → batch = []
  full : fb ≠ [] → batch = wire pack fb
  prefix_ : fb.dropLast ≠ [] → (wire pack fb.dropLast).length ≤ limit
  short : ∀ m ∈ fb, m.length ≤ limit

theorem fill_spec (msgs fb : List Bytes) (batch : Bytes) (h : Filling pack limit fb batch) :
    (fill (makeBatch pack) (isLenLessThanLimit limit) msgs fb batch = .error .tooLong ∧ ∃ m ∈ msgs, ¬ m.length ≤ limit) ∨
    ∃ left fb' batch', fill (makeBatch pack) (isLenLessThanLimit limit) msgs fb batch = .ok (left, fb', batch') ∧
      Filling pack limit fb' batch' ∧ fb' ++ left = fb ++ msgs ∧ (fb ≠ [] ∨ msgs ≠ [] → fb' ≠ []) := by
  induction msgs generalizing fb batch with
  | nil => exact Or.inr ⟨[], fb, batch, rfl, h, rfl, by simp⟩
  | cons m r ih =>
    unfold fill
    by_cases hu : isLenLessThanLimit limit batch.length = true
    · rw [if_pos hu]
      rw [makeBatch_wire pack (g := [m]) (by simp), makeBatch_wire pack (g := fb ++ [m]) (by simp)]
      simp only [wire.eq_1]
      by_cases hm : m.length ≤ limit
      · rw [if_neg (by simp [isLenLessThanLimit, hm])]
        have hf : Filling pack limit (fb ++ [m]) (wire pack (fb ++ [m])) := by
          refine ⟨by simp, fun _ => rfl, fun hd => ?_, fun x hx => ?_⟩
          · rw [List.dropLast_concat] at hd ⊢
            rw [← h.full hd]
            simpa [isLenLessThanLimit] using hu
          · rcases List.mem_append.1 hx with hx | hx
            · exact h.short x hx
            · rw [List.mem_singleton] at hx; rw [hx]; exact hm
        rcases ih _ _ hf with ⟨h1, x, hx, h2⟩ | ⟨left, fb', b', h1, h2, h3, h4⟩
        · exact Or.inl ⟨h1, x, by simp [hx], h2⟩
        · exact Or.inr ⟨left, fb', b', h1, h2, by rw [h3]; simp, fun _ => h4 (Or.inl (by simp))⟩
      · rw [if_pos (by simp [isLenLessThanLimit, hm])]
        exact Or.inl ⟨rfl, m, by simp, hm⟩
    · rw [if_neg hu]
      refine Or.inr ⟨m :: r, fb, batch, rfl, h, rfl, fun _ he => hu ?_⟩
      rw [h.empty he]; simp [isLenLessThanLimit]

theorem stepBack_spec (left fb : List Bytes) (batch : Bytes) (h : Filling pack limit fb batch) (hne : fb ≠ []) :
    ∃ left' g, stepBack (makeBatch pack) (isLenLessThanLimit limit) left fb batch = .ok (left', g, wire pack g) ∧ g ≠ [] ∧
      (wire pack g).length ≤ limit ∧ g ++ left' = fb ++ left ∧ ∀ m ∈ g, m.length ≤ limit := by
  unfold stepBack
  by_cases hu : isLenLessThanLimit limit batch.length = true
  · rw [if_pos hu]
    refine ⟨left, fb, by rw [h.full hne], hne, ?_, rfl, h.short⟩
    rw [← h.full hne]; simpa [isLenLessThanLimit] using hu
  · rw [if_neg hu, List.getLast?_eq_some_getLast hne]
    simp only
    have hd : fb.dropLast ≠ [] := by
      intro hd
      have : fb = [fb.getLast hne] := by
        conv => lhs; rw [← List.dropLast_concat_getLast hne, hd]
        rfl
      apply hu
      rw [h.full hne, this]
      simp only [wire.eq_1, isLenLessThanLimit]
      exact decide_eq_true (h.short _ (List.getLast_mem hne))
    rw [makeBatch_wire pack hd]
    refine ⟨fb.getLast hne :: left, fb.dropLast, rfl, hd, h.prefix_ hd, ?_, fun m hm => h.short m (List.dropLast_subset fb hm)⟩
    conv => rhs; rw [← List.dropLast_concat_getLast hne]
    simp

theorem splitLoop_spec (fuel : Nat) (msgs : List Bytes) (acc : List (Bytes × Nat)) (hf : msgs.length ≤ fuel) :
    (splitLoop (makeBatch pack) (isLenLessThanLimit limit) fuel msgs acc = .error .tooLong ∧ ∃ m ∈ msgs, ¬ m.length ≤ limit) ∨
    ∃ groups : List (List Bytes), splitLoop (makeBatch pack) (isLenLessThanLimit limit) fuel msgs acc =
        .ok (acc ++ groups.map (fun g => (wire pack g, g.length))) ∧ groups.flatten = msgs ∧ (∀ g ∈ groups, g ≠ []) ∧
      (∀ g ∈ groups, (wire pack g).length ≤ limit) ∧ ∀ m ∈ msgs, m.length ≤ limit := by
  induction fuel generalizing msgs acc with
  | zero =>
    cases msgs with
    | nil => exact Or.inr ⟨[], by simp [splitLoop], rfl, by simp, by simp, by simp⟩
    | cons => simp at hf
  | succ fuel ih =>
    cases msgs with
    | nil => exact Or.inr ⟨[], by simp [splitLoop], rfl, by simp, by simp, by simp⟩
    | cons m r =>
      unfold splitLoop
      rcases fill_spec pack limit (m :: r) [] [] ⟨fun _ => rfl, by simp, by simp, by simp⟩ with ⟨h1, h2⟩ | ⟨left, fb, b, h1, h2, h3, h4⟩
      · rw [h1]; exact Or.inl ⟨rfl, h2⟩
      · rw [h1]
        simp only
        obtain ⟨left', g, h5, h6, h7, h8, h9⟩ := stepBack_spec pack limit left fb b h2 (h4 (Or.inr (by simp)))
        rw [h5]
        simp only
        rw [List.nil_append] at h3
        rw [h3] at h8
        have hl : left'.length ≤ fuel := by
          have := congrArg List.length h8
          have hg : 0 < g.length := List.length_pos_iff.2 h6
          simp only [List.length_append, List.length_cons] at this hf
          omega
        rcases ih left' (acc ++ [(wire pack g, g.length)]) hl with ⟨k1, x, k2, k3⟩ | ⟨gs, k1, k2, k3, k4, k5⟩
        · exact Or.inl ⟨k1, x, by rw [← h8]; simp [k2], k3⟩
        · refine Or.inr ⟨g :: gs, ?_, ?_, ?_, ?_, ?_⟩
          · rw [k1]; simp
          · rw [List.flatten_cons, k2, h8]
          · intro x hx
            rcases List.mem_cons.1 hx with rfl | hx
            · exact h6
            · exact k3 x hx
          · intro x hx
            rcases List.mem_cons.1 hx with rfl | hx
            · exact h7
            · exact k4 x hx
          · intro x hx
            rw [← h8] at hx
            rcases List.mem_append.1 hx with hx | hx
            · exact h9 x hx
            · exact k5 x hx

/-- C44: packing messages, each within the limit, always succeeds; the batches are
within the limit and hold the messages, all of them, once, in order. -/
theorem split_transmits (msgs : List Bytes) (h0 : msgs ≠ []) (h : ∀ m ∈ msgs, m.length ≤ limit) :
    ∃ batches, splitMessagesOnBatches msgs (makeBatch pack) (isLenLessThanLimit limit) = .ok batches ∧
      Transmits pack limit msgs (batches.map Prod.fst) ∧ (batches.map Prod.snd).sum = msgs.length := by
  rcases splitLoop_spec pack limit msgs.length msgs [] (Nat.le_refl _) with ⟨-, m, hm, hl⟩ | ⟨gs, h1, h2, h3, h4, -⟩
  · exact absurd (h m hm) hl
  · have hg : gs ≠ [] := by rintro rfl; exact h0 h2.symm
    refine ⟨gs.map (fun g => (wire pack g, g.length)), ?_, ⟨gs, h2, h3, by simp, ?_⟩, ?_⟩
    · unfold splitMessagesOnBatches
      rw [h1]
      cases gs with
      | nil => exact absurd rfl hg
      | cons g r => rfl
    · intro b hb
      simp only [List.map_map, List.mem_map] at hb
      obtain ⟨g, hg, rfl⟩ := hb
      exact h4 g hg
    · rw [← h2, List.length_flatten]
      simp [Function.comp_def]

/-- One message over the limit and nothing is packed at all: the caller, which has
already emptied the outbox, loses every message in it. -/
theorem split_drops_all (msgs : List Bytes) (m : Bytes) (hm : m ∈ msgs) (hl : ¬ m.length ≤ limit) :
    splitMessagesOnBatches msgs (makeBatch pack) (isLenLessThanLimit limit) = .error .tooLong := by
  rcases splitLoop_spec pack limit msgs.length msgs [] (Nat.le_refl _) with ⟨h, -⟩ | ⟨gs, -, -, -, -, h⟩
  · unfold splitMessagesOnBatches; rw [h]
  · exact absurd (h m hm) hl

end Split

private def packLen (l : List Bytes) : Bytes := 0 :: l.flatten
example : splitMessagesOnBatches [[1, 1], [2], [3, 3, 3], [4, 4, 4, 4]] (makeBatch packLen) (isLenLessThanLimit 4) =
    .ok [([0, 1, 1, 2], 2), ([3, 3, 3], 1), ([4, 4, 4, 4], 1)] := by decide +kernel

/-! ## A message cut into parts -/

section Prepare
variable {M : Type} (ser : M → Bytes) (splitter : Option (M → Option (List M))) (limit : Nat)

/-- `Leaves l ms`: cutting every message of `l` that is over the limit, and the pieces
again, ends with `ms`, in order. -/
inductive Leaves : List M → List M → Prop
  | nil : Leaves [] []
  | fine (m r ms) : (ser m).length ≤ limit → Leaves r ms → Leaves (m :: r) (m :: ms)
  | cut (m parts r ps ms) : ¬ (ser m).length ≤ limit → splitter.bind (fun f => f m) = some parts →
      Leaves parts ps → Leaves r ms → Leaves (m :: r) (ps ++ ms)

theorem Leaves.append {a b as bs : List M} (h : Leaves ser splitter limit a as) (h' : Leaves ser splitter limit b bs) :
    Leaves ser splitter limit (a ++ b) (as ++ bs) := by
  induction h with
  | nil => exact h'
  | fine m r ms hm _ ih => exact .fine m _ _ hm ih
  | cut m parts r ps ms h1 h2 h3 _ _ ih =>
    rw [List.append_assoc]
    exact .cut m parts _ ps _ h1 h2 h3 ih

theorem Leaves.split {a b cs : List M} (h : Leaves ser splitter limit (a ++ b) cs) :
    ∃ as bs, cs = as ++ bs ∧ Leaves ser splitter limit a as ∧ Leaves ser splitter limit b bs := by
  induction a generalizing cs with
  | nil => exact ⟨[], cs, rfl, .nil, h⟩
  | cons m r ih =>
    cases h with
    | fine _ _ ms h1 h2 =>
      obtain ⟨as, bs, rfl, h3, h4⟩ := ih h2
      exact ⟨m :: as, bs, rfl, .fine m r as h1 h3, h4⟩
    | cut _ parts _ ps ms h1 h2 h3 h4 =>
      obtain ⟨as, bs, rfl, h5, h6⟩ := ih h4
      exact ⟨ps ++ as, bs, by simp, .cut m parts r ps as h1 h2 h3 h5, h6⟩

theorem prepareLoop_leaves (fuel : Nat) (large : List M) (fine parts : List Bytes)
    (h : prepareLoop ser splitter limit fuel large fine = some (.ok parts)) :
    ∃ ms, Leaves ser splitter limit large ms ∧ parts = fine ++ (ms.reverse.map ser) ∧ ∀ m ∈ ms, (ser m).length ≤ limit := by
  induction fuel generalizing large fine with
  | zero => cases h
  | succ fuel ih =>
    unfold prepareLoop at h
    rcases List.eq_nil_or_concat large with rfl | ⟨l, m, rfl⟩
    · simp only [List.getLast?_nil, Option.some.injEq, Except.ok.injEq] at h
      exact ⟨[], .nil, by simp [h], by simp⟩
    · rw [List.concat_eq_append] at h ⊢
      rw [List.getLast?_concat, List.dropLast_concat] at h
      simp only at h
      by_cases hm : (ser m).length ≤ limit
      · rw [if_pos (by simp [isLenLessThanLimit, hm])] at h
        obtain ⟨ms, h1, h2, h3⟩ := ih _ _ h
        refine ⟨ms ++ [m], h1.append ser splitter limit (.fine m [] [] hm .nil), ?_, ?_⟩
        · rw [h2]; simp
        · intro x hx
          rcases List.mem_append.1 hx with hx | hx
          · exact h3 x hx
          · rw [List.mem_singleton] at hx; rw [hx]; exact hm
      · rw [if_neg (by simp [isLenLessThanLimit, hm])] at h
        split at h
        · next smaller hs =>
          obtain ⟨ms, h1, h2, h3⟩ := ih _ _ h
          obtain ⟨as, bs, rfl, h4, h5⟩ := h1.split ser splitter limit
          refine ⟨as ++ bs, h4.append ser splitter limit ?_, h2, h3⟩
          have := Leaves.cut (ser := ser) (splitter := splitter) (limit := limit) m smaller [] bs [] hm hs h5 .nil
          simpa using this
        · cases h

/-- C44: a message that is accepted for sending is cut into parts that are all within
the limit, and nothing of it is lost. The parts are sent last first. -/
theorem prepare_parts (fuel : Nat) (m : M) (parts : List Bytes)
    (h : prepareLoop ser splitter limit fuel [m] [] = some (.ok parts)) :
    ∃ ms, Leaves ser splitter limit [m] ms ∧ parts.reverse = ms.map ser ∧ ∀ p ∈ parts, p.length ≤ limit := by
  obtain ⟨ms, h1, h2, h3⟩ := prepareLoop_leaves ser splitter limit fuel [m] [] parts h
  refine ⟨ms, h1, by rw [h2]; simp [← List.map_reverse], ?_⟩
  intro p hp
  rw [h2] at hp
  simp only [List.nil_append, List.mem_map, List.mem_reverse] at hp
  obtain ⟨x, hx, rfl⟩ := hp
  exact h3 x hx

end Prepare

/-- A message cut in two and then in two again. -/
example : prepareLoop (M := List UInt8) id (some (fun m => some [m.take (m.length / 2), m.drop (m.length / 2)])) 2 20
    [[1, 2, 3, 4, 5]] [] = some (.ok [[4, 5], [3], [1, 2]]) := by decide +kernel

/-! ## Histories -/

/-- What happens to a stack. -/
inductive BatchEvent where
  /-- `send` of a message, already cut into parts -/
  | send (parts : List Bytes) (rids : List Nat)
  /-- connections come and go -/
  | remotes (l : List Nat)
  /-- `flushOutBoxes` -/
  | flush

/-- One event. `none`: an exception. -/
def batchStep (pack : List Bytes → Bytes) (s : State) : BatchEvent → Option State
  | .send parts rids => some (send s (some parts) rids)
  | .remotes l => some { s with remotes := l }
  | .flush => flushOutBoxes s pack

/-- A history. -/
def batchRun (pack : List Bytes → Bytes) : State → List BatchEvent → Option State
  | s, [] => some s
  | s, e :: r => (batchStep pack s e).bind (fun s => batchRun pack s r)

/-- The messages a history sends to one remote, in order; `l` are the remotes
connected at the start. -/
def sentTo (rid : Nat) : List Nat → List BatchEvent → List Bytes
  | _, [] => []
  | l, .send parts [] :: r => (if l.contains rid then parts else []) ++ sentTo rid l r
  | l, .send parts rids :: r => (rids.filter (· == rid)).flatMap (fun _ => parts) ++ sentTo rid l r
  | _, .remotes l :: r => sentTo rid l r
  | l, .flush :: r => sentTo rid l r

/-- Whenever the outboxes are flushed, the remote is connected. -/
def connected (rid : Nat) : List Nat → List BatchEvent → Prop
  | _, [] => True
  | l, .flush :: r => l.contains rid = true ∧ connected rid l r
  | _, .remotes l :: r => connected rid l r
  | l, .send _ _ :: r => connected rid l r

/-- What waits in the outbox of a remote. -/
def waiting (s : State) (rid : Nat) : List Bytes := (s.outBoxes.get? rid).getD []

/-- What was transmitted to a remote. -/
def toRemote (s : State) (rid : Nat) : List Bytes := (s.transmitted.filter (fun e => e.1 == rid)).map Prod.snd

theorem waiting_enqueue (s : State) (m : Bytes) (r rid : Nat) :
    waiting (enqueue s m r) rid = waiting s rid ++ (if r = rid then [m] else []) := by
  unfold waiting enqueue
  simp only [Dict.get?_set]
  by_cases h : r = rid
  · simp [h]
  · simp [h]

theorem waiting_parts (parts : List Bytes) (s : State) (r rid : Nat) :
    waiting (parts.foldl (fun s p => enqueue s p r) s) rid = waiting s rid ++ (if r = rid then parts else []) := by
  induction parts generalizing s with
  | nil => simp
  | cons m t ih =>
    rw [List.foldl_cons, ih, waiting_enqueue]
    by_cases h : r = rid <;> simp [h]

theorem waiting_rids (rids : List Nat) (parts : List Bytes) (s : State) (rid : Nat) :
    waiting (rids.foldl (fun s r => parts.foldl (fun s p => enqueue s p r) s) s) rid =
      waiting s rid ++ (rids.filter (· == rid)).flatMap (fun _ => parts) := by
  induction rids generalizing s with
  | nil => simp
  | cons r t ih =>
    rw [List.foldl_cons, ih, waiting_parts]
    by_cases h : r = rid <;> simp [h]

theorem waiting_all (l : List Nat) (hn : l.Nodup) (m : Bytes) (s : State) (rid : Nat) :
    waiting (l.foldl (fun s r => enqueue s m r) s) rid = waiting s rid ++ (if l.contains rid then [m] else []) := by
  induction l generalizing s with
  | nil => simp
  | cons r t ih =>
    rw [List.nodup_cons] at hn
    rw [List.foldl_cons, ih hn.2, waiting_enqueue]
    by_cases h : r = rid
    · subst h
      simp [hn.1]
    · have : ¬ rid = r := fun e => h e.symm
      simp [h, this]

/-- Fields that sending leaves alone. -/
theorem enqueue_fields (s : State) (m : Bytes) (r : Nat) : (enqueue s m r).remotes = s.remotes ∧
    (enqueue s m r).transmitted = s.transmitted ∧ (enqueue s m r).limit = s.limit ∧ (enqueue s m r).enabled = s.enabled :=
  ⟨rfl, rfl, rfl, rfl⟩

/-- What holds at every step. -/
structure BatchInv (limit : Nat) (s : State) : Prop where
  keys : s.outBoxes.keys.Nodup
  short : ∀ e ∈ s.outBoxes, ∀ m ∈ e.2, m.length ≤ limit
  remotes : s.remotes.Nodup
  lim : s.limit = limit

theorem BatchInv.enqueue {limit : Nat} {s : State} (h : BatchInv limit s) {m : Bytes} (hm : m.length ≤ limit) (r : Nat) :
    BatchInv limit (enqueue s m r) := by
  refine ⟨Dict.nodup_keys_set h.keys _ _, fun e he x hx => ?_, h.remotes, h.lim⟩
  rcases Dict.mem_set he with he | he
  · exact h.short e he x hx
  · subst he
    rcases List.mem_append.1 hx with hx | hx
    · cases hg : s.outBoxes.get? r with
      | none => rw [hg] at hx; simp at hx
      | some l => rw [hg] at hx; exact h.short _ (Dict.mem_of_get? hg) x hx
    · rw [List.mem_singleton] at hx; rw [hx]; exact hm

/-- `s'` is `s` with messages added to outboxes. -/
structure Queued (limit : Nat) (s s' : State) : Prop where
  inv : BatchInv limit s'
  remotes : s'.remotes = s.remotes
  out : s'.transmitted = s.transmitted

theorem queued_foldl {limit : Nat} {α : Type} (f : State → α → State) (l : List α)
    (hf : ∀ a ∈ l, ∀ s, BatchInv limit s → Queued limit s (f s a)) (s : State) (h : BatchInv limit s) :
    Queued limit s (l.foldl f s) := by
  induction l generalizing s with
  | nil => exact ⟨h, rfl, rfl⟩
  | cons a r ih =>
    have h1 := hf a (by simp) s h
    have h2 := ih (fun b hb => hf b (by simp [hb])) _ h1.inv
    exact ⟨h2.inv, h2.remotes.trans h1.remotes, h2.out.trans h1.out⟩

theorem send_spec {limit : Nat} (s : State) (h : BatchInv limit s) (parts : List Bytes) (hp : ∀ p ∈ parts, p.length ≤ limit)
    (rids : List Nat) : Queued limit s (send s (some parts) rids) ∧ ∀ rid, waiting (send s (some parts) rids) rid =
      waiting s rid ++ sentTo rid s.remotes [.send parts rids] := by
  have hq : ∀ a ∈ parts, ∀ r, ∀ s, BatchInv limit s → Queued limit s (enqueue s a r) :=
    fun a ha r s hs => ⟨hs.enqueue (hp a ha) r, rfl, rfl⟩
  cases rids with
  | nil =>
    have hall : ∀ a ∈ parts, ∀ s, BatchInv limit s → Queued limit s (enqueueIntoAllRemotes s a) :=
      fun a ha s hs => queued_foldl _ _ (fun r _ s hs => hq a ha r s hs) s hs
    refine ⟨queued_foldl _ _ hall s h, fun rid => ?_⟩
    show waiting (parts.foldl enqueueIntoAllRemotes s) rid = _
    simp only [sentTo, List.append_nil]
    clear hp
    induction parts generalizing s with
    | nil => simp
    | cons m t ih =>
      have h1 := hall m (by simp) s h
      rw [List.foldl_cons, ih _ h1.inv (fun a ha => hq a (by simp [ha])) (fun a ha => hall a (by simp [ha])), h1.remotes]
      unfold enqueueIntoAllRemotes
      rw [waiting_all _ h.remotes]
      split <;> simp
  | cons r t =>
    refine ⟨?_, fun rid => ?_⟩
    · show Queued limit s ((r :: t).foldl (fun s r => parts.foldl (fun s p => enqueue s p r) s) s)
      exact queued_foldl _ _ (fun r _ s hs => queued_foldl _ _ (fun a ha s hs => hq a ha r s hs) s hs) s h
    · show waiting ((r :: t).foldl (fun s r => parts.foldl (fun s p => enqueue s p r) s) s) rid = _
      rw [waiting_rids]
      simp [sentTo]

theorem flushBox_spec {limit : Nat} (s : State) (hl : s.limit = limit) (pack : List Bytes → Bytes) (msgs : List Bytes)
    (h : ∀ m ∈ msgs, m.length ≤ limit) : ∃ out, flushBox s pack msgs = some out ∧ Transmits pack limit msgs out := by
  unfold flushBox
  split
  · next hc =>
    simp only [Bool.and_eq_true, decide_eq_true_eq] at hc
    obtain ⟨b, h1, h2, -⟩ := split_transmits pack limit msgs (by intro e; rw [e] at hc; simp at hc) h
    rw [hl, h1]
    exact ⟨_, rfl, h2⟩
  · have hf : ∀ l : List Bytes, (l.map (fun m => [m])).flatten = l := by
      intro l
      induction l with
      | nil => rfl
      | cons m r ih => rw [List.map_cons, List.flatten_cons, ih]; rfl
    exact ⟨msgs, rfl, msgs.map (fun m => [m]), hf msgs, by simp, by simp [wire, Function.comp_def], h⟩

theorem flushAll_spec {limit : Nat} (s : State) (hl : s.limit = limit) (pack : List Bytes → Bytes) (boxes : Dict Nat (List Bytes))
    (hk : boxes.keys.Nodup) (h : ∀ e ∈ boxes, ∀ m ∈ e.2, m.length ≤ limit) :
    ∃ out, flushAll s pack boxes = some out ∧ (∀ rid, rid ∉ boxes.keys → out.filter (fun e => e.1 == rid) = []) ∧
      ∀ rid, s.remotes.contains rid = true →
        Transmits pack limit ((boxes.get? rid).getD []) ((out.filter (fun e => e.1 == rid)).map Prod.snd) := by
  induction boxes with
  | nil => exact ⟨[], rfl, by simp, fun _ _ => ⟨[], rfl, by simp, by simp, by simp⟩⟩
  | cons e r ih =>
    obtain ⟨k, msgs⟩ := e
    simp only [Dict.keys, List.map_cons, List.nodup_cons] at hk
    obtain ⟨out, h1, h2, h3⟩ := ih hk.2 (fun e he => h e (by simp [he]))
    have hb : ∃ o, (if s.remotes.contains k then flushBox s pack msgs else some []) = some o ∧
        (s.remotes.contains k = true → Transmits pack limit msgs o) := by
      by_cases hc : s.remotes.contains k = true
      · obtain ⟨o, h4, h5⟩ := flushBox_spec s hl pack msgs (h (k, msgs) (by simp))
        exact ⟨o, by rw [if_pos hc, h4], fun _ => h5⟩
      · exact ⟨[], by rw [if_neg hc], fun h => absurd h hc⟩
    obtain ⟨o, h4, h5⟩ := hb
    refine ⟨o.map (fun b => (k, b)) ++ out, ?_, fun rid hr => ?_, fun rid hr => ?_⟩
    · unfold flushAll
      rw [h4, h1]
    · simp only [Dict.keys, List.map_cons, List.mem_cons, not_or] at hr
      have : ¬ k = rid := fun e => hr.1 e.symm
      rw [List.filter_append, h2 rid hr.2]
      simp [List.filter_map, Function.comp_def, this]
    · rw [List.filter_append, List.map_append, Dict.get?_cons]
      by_cases hkr : k = rid
      · subst hkr
        have hid : (o.map (fun b => (k, b))).filter (fun e => e.1 == k) = o.map (fun b => (k, b)) := by
          rw [List.filter_eq_self]; intro a ha; obtain ⟨b, -, rfl⟩ := List.mem_map.1 ha; simp
        rw [h2 k hk.1, hid]
        simpa [Function.comp_def] using h5 hr
      · have hno : (o.map (fun b => (k, b))).filter (fun e => e.1 == rid) = [] := by
          rw [List.filter_eq_nil_iff]; intro a ha; obtain ⟨b, -, rfl⟩ := List.mem_map.1 ha; simp [hkr]
        rw [hno]
        simpa [hkr] using h3 rid hr

theorem flush_spec {limit : Nat} (s : State) (h : BatchInv limit s) (pack : List Bytes → Bytes) :
    ∃ s', flushOutBoxes s pack = some s' ∧ BatchInv limit s' ∧ s'.remotes = s.remotes ∧
      ∀ rid, s.remotes.contains rid = true → waiting s' rid = [] ∧
        ∃ out, toRemote s' rid = toRemote s rid ++ out ∧ Transmits pack limit (waiting s rid) out := by
  obtain ⟨out, h1, -, h3⟩ := flushAll_spec s h.lim pack s.outBoxes h.keys h.short
  have he : flushOutBoxes s pack = some { s with
      outBoxes := (s.outBoxes.filter (fun e => s.remotes.contains e.1)).map (fun e => (e.1, []))
      transmitted := s.transmitted ++ out } := by unfold flushOutBoxes; rw [h1]; rfl
  refine ⟨_, he, ⟨?_, ?_, h.remotes, h.lim⟩, rfl, fun rid hr => ⟨?_, ?_⟩⟩
  · show (List.map _ (List.map _ (List.filter _ s.outBoxes))).Nodup
    rw [List.map_map]
    exact Dict.nodup_keys_filter h.keys (fun e => s.remotes.contains e.1)
  · intro e he m hm
    obtain ⟨x, -, rfl⟩ := List.mem_map.1 he
    simp at hm
  · unfold waiting
    cases hg : Dict.get? (List.map (fun e => (e.1, ([] : List Bytes))) (s.outBoxes.filter (fun e => s.remotes.contains e.1))) rid with
    | none => simp
    | some l =>
      have := Dict.mem_of_get? hg
      obtain ⟨x, -, hx⟩ := List.mem_map.1 this
      simp only [Prod.mk.injEq] at hx
      exact hx.2.symm
  · exact ⟨_, by simp [toRemote], h3 rid hr⟩

theorem transmits_append {pack : List Bytes → Bytes} {limit : Nat} {a b x y : List Bytes}
    (h : Transmits pack limit a x) (h' : Transmits pack limit b y) : Transmits pack limit (a ++ b) (x ++ y) := by
  obtain ⟨g, rfl, h2, rfl, h4⟩ := h
  obtain ⟨g', rfl, h2', rfl, h4'⟩ := h'
  refine ⟨g ++ g', by simp, fun z hz => ?_, by simp, fun z hz => ?_⟩
  · rcases List.mem_append.1 hz with hz | hz
    · exact h2 z hz
    · exact h2' z hz
  · rcases List.mem_append.1 hz with hz | hz
    · exact h4 z hz
    · exact h4' z hz

theorem batchRun_spec (pack : List Bytes → Bytes) (limit : Nat) (evs : List BatchEvent) (s : State) (h : BatchInv limit s)
    (hp : ∀ parts rids, BatchEvent.send parts rids ∈ evs → ∀ p ∈ parts, p.length ≤ limit)
    (hr : ∀ l, BatchEvent.remotes l ∈ evs → l.Nodup) :
    ∃ s', batchRun pack s evs = some s' ∧ ∀ rid, connected rid s.remotes evs →
      ∃ out msgs, toRemote s' rid = toRemote s rid ++ out ∧ Transmits pack limit msgs out ∧
        waiting s rid ++ sentTo rid s.remotes evs = msgs ++ waiting s' rid := by
  induction evs generalizing s with
  | nil => exact ⟨s, rfl, fun rid _ => ⟨[], [], by simp, ⟨[], rfl, by simp, by simp, by simp⟩, by simp [sentTo]⟩⟩
  | cons e r ih =>
    have hp' : ∀ parts rids, BatchEvent.send parts rids ∈ r → ∀ p ∈ parts, p.length ≤ limit :=
      fun a b hm => hp a b (by simp [hm])
    have hr' : ∀ l, BatchEvent.remotes l ∈ r → l.Nodup := fun l hm => hr l (by simp [hm])
    cases e with
    | send parts rids =>
      obtain ⟨hq, hw⟩ := send_spec s h parts (hp parts rids (by simp)) rids
      obtain ⟨s', h1, h2⟩ := ih _ hq.inv hp' hr'
      refine ⟨s', h1, fun rid hc => ?_⟩
      have hc' : connected rid (send s (some parts) rids).remotes r := by
        rw [hq.remotes]; exact hc
      obtain ⟨out, msgs, h3, h4, h5⟩ := h2 rid hc'
      refine ⟨out, msgs, ?_, h4, ?_⟩
      · rw [h3]; simp only [toRemote, hq.out]
      · rw [← h5, hw, hq.remotes, List.append_assoc]
        congr 1
        cases rids <;> simp [sentTo]
    | remotes l =>
      obtain ⟨s', h1, h2⟩ := ih ({ s with remotes := l } : State) ⟨h.keys, h.short, hr l (by simp), h.lim⟩ hp' hr'
      exact ⟨s', h1, fun rid hc => h2 rid hc⟩
    | flush =>
      obtain ⟨s1, h1, h2, h3, h4⟩ := flush_spec s h pack
      obtain ⟨s', h5, h6⟩ := ih s1 h2 hp' hr'
      refine ⟨s', by simp [batchRun, batchStep, h1, h5], fun rid hc => ?_⟩
      obtain ⟨hw, out1, h7, h8⟩ := h4 rid hc.1
      obtain ⟨out, msgs, h9, h10, h11⟩ := h6 rid (by rw [h3]; exact hc.2)
      refine ⟨out1 ++ out, waiting s rid ++ msgs, by rw [h9, h7, List.append_assoc], transmits_append h8 h10, ?_⟩
      rw [hw, h3, List.nil_append] at h11
      rw [List.append_assoc, ← h11]
      rfl

/-- C44: over every history of sending, flushing and changing connections, nothing is
raised, and a remote that is connected whenever the outboxes are flushed is
transmitted every message sent to it, once and in order, in transmissions within
the limit; what is not transmitted yet waits in its outbox. Parts are within the
limit by `prepare_parts`. -/
theorem batching_history (pack : List Bytes → Bytes) (limit : Nat) (enabled : Bool) (l : List Nat) (hl : l.Nodup)
    (evs : List BatchEvent)
    (hp : ∀ parts rids, BatchEvent.send parts rids ∈ evs → ∀ p ∈ parts, p.length ≤ limit)
    (hr : ∀ l, BatchEvent.remotes l ∈ evs → l.Nodup) :
    ∃ s, batchRun pack ⟨[], l, [], enabled, limit⟩ evs = some s ∧ ∀ rid, connected rid l evs →
      ∃ msgs, sentTo rid l evs = msgs ++ waiting s rid ∧ Transmits pack limit msgs (toRemote s rid) := by
  obtain ⟨s, h1, h2⟩ := batchRun_spec pack limit evs ⟨[], l, [], enabled, limit⟩
    ⟨List.nodup_nil, by simp, hl, rfl⟩ hp hr
  refine ⟨s, h1, fun rid hc => ?_⟩
  obtain ⟨out, msgs, h3, h4, h5⟩ := h2 rid hc
  refine ⟨msgs, by simpa [waiting] using h5, ?_⟩
  rw [h3]
  simpa [toRemote] using h4

private def evs0 : List BatchEvent :=
  [.send [[1, 1]] [], .send [[2], [5]] [7], .flush, .remotes [7], .send [[3]] [8, 7], .flush, .send [[4]] []]
example : connected 7 [7, 8] evs0 ∧ sentTo 7 [7, 8] evs0 = [[1, 1], [2], [5], [3], [4]] := by
  refine ⟨⟨by decide, by decide, trivial⟩, by decide +kernel⟩
example : (batchRun packLen ⟨[], [7, 8], [], true, 4⟩ evs0).map (fun s => (toRemote s 7, waiting s 7)) =
    some ([[0, 1, 1, 2], [5], [3]], [[4]]) := by decide +kernel

end Verif.Props
