import Verif.Proofs.AnswersSent
/-!
# How often a request is answered, and when it is
-/
namespace Verif.Answers
open Verif.Propagator (Key Req Sender)

variable (cfg : Cfg)

/-! ## One end for each time a request is brought -/

/-- Whether a request is being processed, as a number. -/
def held (s : State) (k : Key) : Nat := if (s.sender.get? k).isSome then 1 else 0

theorem held_none {s : State} {k : Key} (h : s.sender.get? k = none) : held s k = 0 := by
  unfold held; rw [h]; rfl

theorem held_some {s : State} {k : Key} {c : Option Client} (h : s.sender.get? k = some c) : held s k = 1 := by
  unfold held; rw [h]; rfl

theorem held_le (s : State) (k : Key) : held s k ≤ 1 := by
  unfold held; split <;> omega

theorem held_eq {s t : State} {k : Key} (h : t.sender.get? k = s.sender.get? k) : held t k = held s k := by
  unfold held; rw [h]

theorem rejectOne_held (s : State) (r : Req) (k : Key) :
    (s.rejectOne cfg r).2.countP (Out.ends cfg k) + held (s.rejectOne cfg r).1 k ≤ held s k := by
  by_cases e : cfg.prop.digest r = k
  · have h1 : held (s.rejectOne cfg r).1 k = 0 := held_none (by rw [rejectOne_sender, if_pos e])
    rw [h1]
    unfold State.rejectOne
    split
    · simp
    · rename_i c hc
      rw [e] at hc
      rw [held_some hc]
      cases c <;> simp [toClient, List.countP_cons]
      split <;> omega
  · have h1 : held (s.rejectOne cfg r).1 k = held s k := held_eq (by rw [rejectOne_sender, if_neg e])
    rw [h1]
    have : (s.rejectOne cfg r).2.countP (Out.ends cfg k) = 0 := by
      unfold State.rejectOne
      split
      · rfl
      · rename_i c hc
        cases c <;> simp [toClient, Out.ends, e]
    omega

theorem replyOne_held (s : State) (t : Req) (l n : Nat) (k : Key) :
    (s.replyOne cfg t l n).2.countP (Out.ends cfg k) + held (s.replyOne cfg t l n).1 k ≤ held s k := by
  by_cases e : cfg.prop.digest t = k
  · have h1 : held (s.replyOne cfg t l n).1 k = 0 := held_none (by rw [replyOne_sender, if_pos e])
    rw [h1]
    unfold State.replyOne
    split
    · simp
    · rename_i c hc
      rw [e] at hc
      rw [held_some hc]
      cases c <;> simp [toClient, List.countP_cons]
      split <;> omega
  · have h1 : held (s.replyOne cfg t l n).1 k = held s k := held_eq (by rw [replyOne_sender, if_neg e])
    rw [h1]
    have : (s.replyOne cfg t l n).2.countP (Out.ends cfg k) = 0 := by
      unfold State.replyOne
      split
      · rfl
      · rename_i c hc
        cases c <;> simp [toClient, Out.ends, e]
    omega

theorem rejectAll_held (s : State) (rs : List Req) (k : Key) :
    (s.rejectAll cfg rs).2.countP (Out.ends cfg k) + held (s.rejectAll cfg rs).1 k ≤ held s k := by
  induction rs generalizing s with
  | nil => simp [State.rejectAll]
  | cons r rs ih =>
    rw [State.rejectAll]
    dsimp only
    rw [List.countP_append]
    have h1 := rejectOne_held cfg s r k
    have h2 := ih (s.rejectOne cfg r).1
    omega

theorem replyAll_held (s : State) (l n : Nat) (ts : List Req) (k : Key) :
    (s.replyAll cfg l n ts).2.countP (Out.ends cfg k) + held (s.replyAll cfg l n ts).1 k ≤ held s k := by
  induction ts generalizing s n with
  | nil => simp [State.replyAll]
  | cons t ts ih =>
    rw [State.replyAll]
    dsimp only
    rw [List.countP_append]
    have h1 := replyOne_held cfg s t l n k
    have h2 := ih (s.replyOne cfg t l n).1 (n + 1)
    omega

/-- What one event adds to the number of ends, and to the requests being processed. -/
theorem step_held (s : State) (e : Ev) (k : Key) :
    (if e.isCame then 0 else (s.step cfg e).2.countP (Out.ends cfg k)) + held (s.step cfg e).1 k ≤
      held s k + (if e.brings cfg k then 1 else 0) := by
  have pp : ∀ r f d, (s.processPropagate cfg r f d).2.countP (Out.ends cfg k) +
      held (s.processPropagate cfg r f d).1 k ≤ held s k + (if cfg.prop.digest r = k then 1 else 0) := by
    intro r f d
    have h0 : (s.processPropagate cfg r f d).2.countP (Out.ends cfg k) = 0 := by
      rw [List.countP_eq_zero]
      intro o ho
      rcases processPropagate_out cfg ho with rfl | ⟨_, _, rfl⟩ <;> simp [Out.ends]
    rcases processPropagate_sender cfg s r f d k with h | ⟨h, _, _⟩
    · rw [h0, held_eq h]; omega
    · have := held_le (s.processPropagate cfg r f d).1 k
      rw [h0, if_pos h]; omega
  cases e with
  | came r c =>
    show 0 + held (s.came cfg r c).1 k ≤ held s k + _
    rcases came_sender cfg s r c k with h | ⟨h, _, _⟩
    · rw [held_eq h]; omega
    · have := held_le (s.came cfg r c).1 k
      simp only [Ev.brings, h, decide_true, if_true]
      omega
  | propagate r f d =>
    by_cases ha : cfg.prop.authentic r = true
    · have hs : s.step cfg (.propagate r f d) = s.processPropagate cfg r f d := if_pos ha
      rw [hs]
      have := pp r f d
      simpa [Ev.isCame, Ev.brings] using this
    · have hs : s.step cfg (.propagate r f d) = (s, []) := if_neg ha
      rw [hs]
      simp [Ev.isCame]
  | propRep r f d =>
    have := pp r f d
    simpa [Ev.isCame, Ev.brings, State.step] using this
  | apply l ks =>
    show (s.apply cfg l ks).2.countP (Out.ends cfg k) + held (s.apply cfg l ks).1 k ≤ held s k + 0
    unfold State.apply
    split
    · simp
    · split
      · split
        · simp
        · rename_i v _
          exact rejectAll_held cfg { s with pending := s.pending ++ [Batch.mk l v] } _ k
      · simp
  | order =>
    show (s.order cfg).2.countP (Out.ends cfg k) + held (s.order cfg).1 k ≤ held s k + 0
    unfold State.order
    split
    · simp
    · dsimp only
      rename_i b bs hp
      have := replyAll_held cfg ((({ s with pending := bs } : State).append b.ledger b.valid).updateDb cfg b.ledger
        (numbered ((s.ledger b.ledger).length + 1) b.valid)) b.ledger ((s.ledger b.ledger).length + 1) b.valid k
      have e : held ((({ s with pending := bs } : State).append b.ledger b.valid).updateDb cfg b.ledger
        (numbered ((s.ledger b.ledger).length + 1) b.valid)) k = held s k :=
        held_eq (by rw [updateDb_sender]; rfl)
      rw [e] at this
      exact this
  | caughtUp r =>
    show 0 + held (s.caughtUp cfg r) k ≤ held s k + 0
    rcases step_sender cfg s (.caughtUp r) k with h | h | ⟨_, _, _, _, h⟩ | ⟨h, _⟩
    · rw [show held (s.caughtUp cfg r) k = held s k from held_eq h]; omega
    · rw [show held (s.caughtUp cfg r) k = 0 from held_none h]; omega
    · exact h.elim
    · cases h
  | outdated j =>
    show 0 + held (s.outdated j) k ≤ held s k + 0
    rcases step_sender cfg s (.outdated j) k with h | h | ⟨_, _, _, _, h⟩ | ⟨h, _⟩
    · rw [show held (s.outdated j) k = held s k from held_eq h]; omega
    · rw [show held (s.outdated j) k = 0 from held_none h]; omega
    · exact h.elim
    · cases h
  | revert n => exact Nat.le_of_eq (Nat.zero_add _)
  | ordered j => exact Nat.le_of_eq (Nat.zero_add _)
  | released i j => exact Nat.le_of_eq (Nat.zero_add _)
  | replicas n => exact Nat.le_of_eq (Nat.zero_add _)
  | viewChange b => exact Nat.le_of_eq (Nat.zero_add _)
  | restart =>
    show 0 + 0 ≤ _
    omega

theorem pushed_cons (e : Ev) (o : List Out) (tr : List (Ev × List Out)) :
    pushed ((e, o) :: tr) = (if e.isCame then [] else o) ++ pushed tr := by
  unfold pushed
  cases h : e.isCame <;> simp [h]

theorem pushed_ends (s : State) (es : List Ev) (k : Key) :
    (pushed (s.trace cfg es)).countP (Out.ends cfg k) + held (s.run cfg es).1 k ≤
      held s k + es.countP (fun e => e.brings cfg k) := by
  induction es generalizing s with
  | nil => simp [State.trace, State.run, pushed]
  | cons e es ih =>
    rw [State.trace, pushed_cons, List.countP_append, List.countP_cons]
    have h1 := step_held cfg s e k
    have h2 := ih (s.step cfg e).1
    have h3 : (State.run cfg s (e :: es)).1 = ((s.step cfg e).1.run cfg es).1 := rfl
    rw [h3]
    cases hc : e.isCame <;> simp only [hc, if_true, Bool.false_eq_true, if_false, List.countP_nil] at h1 ⊢ <;> omega

/-! ## Undisturbed, a request stays in processing until its end is told -/

theorem rejectAll_told {s : State} {rs : List Req} {k : Key} {c : Client} (h : s.sender.get? k = some (some c))
    (hk : rs.any (fun r => cfg.prop.digest r = k) = true) :
    ∃ r, cfg.prop.digest r = k ∧ .client c (.reject r) ∈ (s.rejectAll cfg rs).2 := by
  induction rs generalizing s with
  | nil => cases hk
  | cons r rs ih =>
    rw [State.rejectAll]
    by_cases e : cfg.prop.digest r = k
    · refine ⟨r, e, List.mem_append_left _ ?_⟩
      unfold State.rejectOne
      rw [e, h]
      simp [toClient]
    · have h' : (s.rejectOne cfg r).1.sender.get? k = some (some c) := by
        rw [rejectOne_sender, if_neg e]; exact h
      obtain ⟨q, hq, ho⟩ := ih h' (by simpa [e] using hk)
      exact ⟨q, hq, List.mem_append_right _ ho⟩

theorem replyAll_told {s : State} {l n : Nat} {ts : List Req} {k : Key} {c : Client}
    (h : s.sender.get? k = some (some c)) (hk : ts.any (fun r => cfg.prop.digest r = k) = true) :
    ∃ i t, ts[i]? = some t ∧ cfg.prop.digest t = k ∧ .client c (.reply t l (n + i)) ∈ (s.replyAll cfg l n ts).2 := by
  induction ts generalizing s n with
  | nil => cases hk
  | cons r rs ih =>
    rw [State.replyAll]
    by_cases e : cfg.prop.digest r = k
    · refine ⟨0, r, rfl, e, List.mem_append_left _ ?_⟩
      unfold State.replyOne
      rw [e, h]
      simp [toClient]
    · have h' : (s.replyOne cfg r l n).1.sender.get? k = some (some c) := by
        rw [replyOne_sender, if_neg e]; exact h
      obtain ⟨i, t, hi, hq, ho⟩ := ih (n := n + 1) h' (by simpa [e] using hk)
      exact ⟨i + 1, t, hi, hq, List.mem_append_right _ (by rwa [show n + (i + 1) = n + 1 + i by omega])⟩

theorem order_told {s : State} {b : Batch} {bs : List Batch} (hp : s.pending = b :: bs) {k : Key} {c : Client}
    (h : s.sender.get? k = some (some c)) (hk : b.valid.any (fun r => cfg.prop.digest r = k) = true) :
    ∃ i t, b.valid[i]? = some t ∧ cfg.prop.digest t = k ∧
      .client c (.reply t b.ledger ((s.ledger b.ledger).length + 1 + i)) ∈ (s.order cfg).2 := by
  unfold State.order
  rw [hp]
  exact replyAll_told cfg (by rw [updateDb_sender]; exact h) hk

theorem keeps_step {s : State} {e : Ev} {k : Key} {c : Client} (h : s.sender.get? k = some (some c))
    (hf : e.forgets cfg k = false) (ho : ∀ o ∈ (s.step cfg e).2, o.ends cfg k = false) :
    (s.step cfg e).1.sender.get? k = some (some c) := by
  cases e with
  | came r d =>
    rcases came_sender cfg s r d k with g | ⟨_, g, _⟩
    · exact g.trans h
    · rw [h] at g; cases g
  | propagate r f d =>
    by_cases ha : cfg.prop.authentic r = true
    · have hs : s.step cfg (.propagate r f d) = s.processPropagate cfg r f d := if_pos ha
      rw [hs]
      rcases processPropagate_sender cfg s r f d k with g | ⟨_, g, _⟩
      · exact g.trans h
      · rw [h] at g; rcases g with g | g <;> cases g
    · have hs : s.step cfg (.propagate r f d) = (s, []) := if_neg ha
      rw [hs]; exact h
  | propRep r f d =>
    rcases processPropagate_sender cfg s r f d k with g | ⟨_, g, _⟩
    · exact g.trans h
    · rw [h] at g; rcases g with g | g <;> cases g
  | apply l ks =>
    replace ho : ∀ o ∈ (s.apply cfg l ks).2, o.ends cfg k = false := ho
    show (s.apply cfg l ks).1.sender.get? k = _
    unfold State.apply at ho ⊢
    split at ho
    · exact h
    · split at ho
      · rename_i hall
        split at ho
        · rename_i hv; simp only [hall, if_true]; exact h
        · rename_i v hv
          rw [if_pos hall]
          rw [rejectAll_sender]
          split
          · rename_i hk
            obtain ⟨r, hr, hm⟩ := rejectAll_told cfg (s := { s with pending := s.pending ++ [Batch.mk l v] }) h hk
            have := ho _ hm
            simp [Out.ends, hr] at this
          · exact h
      · rename_i hall; rw [if_neg hall]; exact h
  | order =>
    replace ho : ∀ o ∈ (s.order cfg).2, o.ends cfg k = false := ho
    show (s.order cfg).1.sender.get? k = _
    cases hp : s.pending with
    | nil => unfold State.order; rw [hp]; exact h
    | cons b bs =>
      cases hk : b.valid.any (fun r => cfg.prop.digest r = k) with
      | true =>
        obtain ⟨i, t, _, ht, hm⟩ := order_told cfg hp h hk
        have := ho _ hm
        simp [Out.ends, ht] at this
      | false =>
        unfold State.order
        rw [hp]
        dsimp only
        rw [replyAll_sender, updateDb_sender, hk]
        exact h
  | caughtUp r =>
    have hr : cfg.prop.digest r ≠ k := by simpa [Ev.forgets] using hf
    show (s.caughtUp cfg r).sender.get? k = _
    unfold State.caughtUp
    split
    · dsimp only
      rcases clear_sender ((s.append (cfg.ledgerOf r) [r]).updateDb cfg (cfg.ledgerOf r)
        [(r, (s.ledger (cfg.ledgerOf r)).length + 1)]) (cfg.prop.digest r) k with g | ⟨g, _⟩
      · rw [g, updateDb_sender]; exact h
      · exact absurd g hr
    · exact h
  | outdated j =>
    have hr : j ≠ k := by simpa [Ev.forgets] using hf
    show (s.outdated j).sender.get? k = _
    unfold State.outdated
    split
    · rw [done_get?, if_neg hr]; exact h
    · exact h
  | revert n => exact h
  | ordered j => exact h
  | released i j => exact h
  | replicas n => exact h
  | viewChange b => exact h
  | restart => cases hf

theorem keeps_run {s : State} {es : List Ev} {k : Key} {c : Client} (h : s.sender.get? k = some (some c))
    (hf : ∀ e ∈ es, e.forgets cfg k = false) (ho : ∀ o ∈ (s.run cfg es).2, o.ends cfg k = false) :
    (s.run cfg es).1.sender.get? k = some (some c) := by
  induction es generalizing s with
  | nil => exact h
  | cons e es ih =>
    exact ih (keeps_step cfg h (hf e List.mem_cons_self) (fun o ho' => ho o (List.mem_append_left _ ho')))
      (fun e he => hf e (List.mem_cons_of_mem _ he)) (fun o ho' => ho o (List.mem_append_right _ ho'))

/-! ## A request is executed once -/

/-- Nothing that waits to be ordered is known or there twice. -/
structure Once (s : State) : Prop where
  nodup : (s.uncommitted.map cfg.prop.payload).Nodup
  new : ∀ u ∈ s.uncommitted, s.byPayload.has (cfg.prop.payload u) = false

theorem nodup_append_of {l₁ l₂ : List Key} (h1 : l₁.Nodup) (h2 : l₂.Nodup) (h : ∀ x ∈ l₁, x ∉ l₂) :
    (l₁ ++ l₂).Nodup := List.nodup_append.mpr ⟨h1, h2, fun a ha _ hb e => h a ha (e ▸ hb)⟩

theorem fresh_new {s : State} {cur : List Req} {r : Req} (hl : ∀ r q, cfg.prop.payload r = cfg.prop.payload q →
    cfg.ledgerOf r = cfg.ledgerOf q) (h : s.fresh cfg cur r = true) :
    s.byPayload.has (cfg.prop.payload r) = false ∧ ∀ u ∈ s.uncommitted ++ cur, cfg.prop.payload u ≠ cfg.prop.payload r := by
  unfold State.fresh at h
  rw [Bool.and_eq_true, Bool.not_eq_true', Bool.not_eq_true'] at h
  refine ⟨h.1, fun u hu e => ?_⟩
  have := List.any_eq_false.mp h.2 u (List.mem_filter.mpr ⟨hu, by simpa using hl u r e⟩)
  simp [e] at this

theorem applyReqs_new {s : State} (hl : ∀ r q, cfg.prop.payload r = cfg.prop.payload q →
    cfg.ledgerOf r = cfg.ledgerOf q) {rs : List Req} {cur : List Req} {v : List (Req × Bool)}
    (h : s.applyReqs cfg cur rs = some v) (hs : ((s.uncommitted ++ cur).map cfg.prop.payload).Nodup) :
    ((s.uncommitted ++ cur ++ (v.filter Prod.snd).map Prod.fst).map cfg.prop.payload).Nodup ∧
      ∀ u ∈ (v.filter Prod.snd).map Prod.fst, s.byPayload.has (cfg.prop.payload u) = false := by
  induction rs generalizing cur v with
  | nil =>
    rw [State.applyReqs] at h
    cases h
    exact ⟨by simpa using hs, fun u hu => (nomatch hu)⟩
  | cons r rs ih =>
    rw [State.applyReqs] at h
    split at h
    · rename_i hf
      obtain ⟨hn, hne⟩ := fresh_new cfg hl hf
      dsimp only at h
      obtain ⟨w, hw, rfl⟩ := Option.map_eq_some_iff.mp h
      cases hv : cfg.valid (s.history ++ s.uncommitted ++ cur) r with
      | false =>
        rw [hv] at hw
        simp only [List.filter_cons]
        exact ih hw hs
      | true =>
        rw [hv] at hw
        have hs' : ((s.uncommitted ++ (cur ++ [r])).map cfg.prop.payload).Nodup := by
          rw [← List.append_assoc, List.map_append]
          refine nodup_append_of hs (by simp) ?_
          intro x hx hx'
          obtain ⟨u, hu, rfl⟩ := List.mem_map.mp hx
          simp only [List.map_cons, List.map_nil, List.mem_singleton] at hx'
          exact hne u hu hx'
        obtain ⟨h1, h2⟩ := ih hw hs'
        simp only [List.filter_cons, if_true, List.map_cons]
        refine ⟨?_, ?_⟩
        · have e : s.uncommitted ++ cur ++ (r :: (w.filter Prod.snd).map Prod.fst) =
              s.uncommitted ++ (cur ++ [r]) ++ (w.filter Prod.snd).map Prod.fst := by simp
          rw [e]; exact h1
        · intro u hu
          rcases List.mem_cons.mp hu with rfl | hu
          · exact hn
          · exact h2 u hu
    · cases h

theorem uncommitted_of_pending {s t : State} (h : t.pending = s.pending) : t.uncommitted = s.uncommitted := by
  unfold State.uncommitted; rw [h]

theorem Once.same {s t : State} (h : Same s t) (o : Once cfg s) : Once cfg t := by
  constructor
  · rw [uncommitted_of_pending h.pending]; exact o.nodup
  · rw [uncommitted_of_pending h.pending, h.byPayload]; exact o.new

theorem updateDb_pending (s : State) (l : Nat) (ts : List (Req × Nat)) :
    (s.updateDb cfg l ts).pending = s.pending := by
  unfold State.updateDb; split <;> rfl

theorem flatMap_take (f : Batch → List Req) (bs : List Batch) (n : Nat) :
    ∃ r, bs.flatMap f = (bs.take n).flatMap f ++ r :=
  ⟨(bs.drop n).flatMap f, by rw [← List.flatMap_append, List.take_append_drop]⟩

/-- The effect of `updateDb` when all transactions have a `reqId`. -/
theorem updateDb_has (hid : ∀ r, cfg.reqId r ≠ 0) (s : State) (l n : Nat) (ts : List Req) (p : Key) :
    (s.updateDb cfg l (numbered n ts)).byPayload.has p = (s.byPayload.has p || ts.any (fun t => cfg.prop.payload t = p)) := by
  have hall : (numbered n ts).all (fun t => cfg.reqId t.1 ≠ 0) = true := by
    rw [List.all_eq_true]; intro x _; simpa using hid x.1
  unfold State.updateDb
  rw [if_pos hall]
  show Dict.has ((numbered n ts).foldl (fun d t => d.set (cfg.prop.payload t.1) (l, t.2)) s.byPayload) p = _
  have hany : ts.any (fun t => cfg.prop.payload t = p) = (numbered n ts).any (fun x => cfg.prop.payload x.1 = p) := by
    have e : ts.any (fun t => cfg.prop.payload t = p) = ((numbered n ts).map Prod.fst).any (fun t => cfg.prop.payload t = p) := by
      rw [numbered_fst]
    rw [e, List.any_map]
    rfl
  rw [hany]
  rcases get?_foldl_set cfg (numbered n ts) l s.byPayload p with ⟨x, hx, hp, hg⟩ | ⟨hn, hg⟩
  · have h1 : (numbered n ts).any (fun x => cfg.prop.payload x.1 = p) = true :=
      List.any_eq_true.mpr ⟨x, hx, by simpa using hp⟩
    rw [h1, Bool.or_true]
    unfold Dict.has; rw [hg]; rfl
  · have h1 : (numbered n ts).any (fun x => cfg.prop.payload x.1 = p) = false :=
      List.any_eq_false.mpr (fun x hx => by simpa using hn x hx)
    rw [h1, Bool.or_false]
    unfold Dict.has; rw [hg]

theorem once_step (hl : ∀ r q, cfg.prop.payload r = cfg.prop.payload q → cfg.ledgerOf r = cfg.ledgerOf q)
    (hid : ∀ r, cfg.reqId r ≠ 0) (s : State) (e : Ev) (o : Once cfg s) : Once cfg (s.step cfg e).1 := by
  have keep : Same s (s.step cfg e).1 → Once cfg (s.step cfg e).1 := fun h => o.same cfg h
  cases e with
  | came r c => exact keep (same_came cfg s r c)
  | propagate r f d =>
    refine keep ?_
    show Same s (if cfg.prop.authentic r then s.processPropagate cfg r f d else (s, [])).1
    split
    · exact same_processPropagate cfg s r f d
    · exact .refl _
  | propRep r f d => exact keep (same_processPropagate cfg s r f d)
  | apply l ks =>
    show Once cfg (s.apply cfg l ks).1
    unfold State.apply
    split
    · exact o
    · split
      · split
        · exact o
        · rename_i v hv
          refine Once.same cfg (same_rejectAll cfg _ _) ?_
          have hu : State.uncommitted { s with pending := s.pending ++ [Batch.mk l v] } =
              s.uncommitted ++ (v.filter Prod.snd).map Prod.fst := by
            unfold State.uncommitted
            dsimp only
            rw [List.flatMap_append]
            simp [Batch.valid]
          obtain ⟨h1, h2⟩ := applyReqs_new cfg hl hv (by rw [List.append_nil]; exact o.nodup)
          rw [List.append_nil] at h1
          constructor
          · rw [hu]; exact h1
          · rw [hu]
            intro u hu'
            rcases List.mem_append.mp hu' with h | h
            · exact o.new u h
            · exact h2 u h
      · exact o
  | revert n =>
    obtain ⟨r, hr⟩ := flatMap_take Batch.valid s.pending n
    replace hr : s.uncommitted = State.uncommitted { s with pending := s.pending.take n } ++ r := hr
    constructor
    · have := o.nodup
      rw [hr, List.map_append] at this
      exact (List.nodup_append.mp this).1
    · intro u hu
      exact o.new u (by rw [hr]; exact List.mem_append_left _ hu)
  | order =>
    show Once cfg (s.order cfg).1
    unfold State.order
    split
    · exact o
    · rename_i b bs hp
      dsimp only
      have hu : s.uncommitted = b.valid ++ bs.flatMap Batch.valid := by
        unfold State.uncommitted; rw [hp, List.flatMap_cons]
      have base : Once cfg ((({ s with pending := bs } : State).append b.ledger b.valid).updateDb cfg b.ledger
          (numbered ((s.ledger b.ledger).length + 1) b.valid)) := by
        have hu' : State.uncommitted ((({ s with pending := bs } : State).append b.ledger b.valid).updateDb cfg b.ledger
          (numbered ((s.ledger b.ledger).length + 1) b.valid)) = bs.flatMap Batch.valid := by
          unfold State.uncommitted; rw [updateDb_pending]; rfl
        have hd := o.nodup
        rw [hu, List.map_append] at hd
        obtain ⟨_, hd2, hd3⟩ := List.nodup_append.mp hd
        constructor
        · rw [hu']; exact hd2
        · rw [hu']
          intro u hx
          rw [updateDb_has cfg hid]
          have h1 : s.byPayload.has (cfg.prop.payload u) = false := o.new u (by rw [hu]; exact List.mem_append_right _ hx)
          have h2 : b.valid.any (fun t => cfg.prop.payload t = cfg.prop.payload u) = false := by
            rw [List.any_eq_false]
            intro t ht
            have := hd3 _ (List.mem_map_of_mem (f := cfg.prop.payload) ht) _ (List.mem_map_of_mem (f := cfg.prop.payload) hx)
            simpa using this
          show (s.byPayload.has (cfg.prop.payload u) || _) = false
          rw [h1, h2]; rfl
      exact Once.same cfg ((same_replyAll cfg _ b.ledger _ b.valid).trans ⟨rfl, rfl, rfl, rfl, rfl⟩) base
  | caughtUp r =>
    show Once cfg (s.caughtUp cfg r)
    unfold State.caughtUp
    split
    · rename_i hp
      refine Once.same cfg (same_clear _ _) ?_
      have : State.uncommitted ((s.append (cfg.ledgerOf r) [r]).updateDb cfg (cfg.ledgerOf r)
          [(r, (s.ledger (cfg.ledgerOf r)).length + 1)]) = [] := by
        unfold State.uncommitted
        rw [updateDb_pending]
        show s.pending.flatMap Batch.valid = []
        rw [List.isEmpty_iff.mp hp]; rfl
      constructor
      · rw [this]; exact List.nodup_nil
      · rw [this]; intro u hu; exact (nomatch hu)
    · exact o
  | outdated k => exact keep (same_outdated s k)
  | ordered k => exact keep ⟨rfl, rfl, rfl, rfl, rfl⟩
  | released i k => exact keep ⟨rfl, rfl, rfl, rfl, rfl⟩
  | replicas n => exact keep ⟨rfl, rfl, rfl, rfl, rfl⟩
  | viewChange b => exact keep ⟨rfl, rfl, rfl, rfl, rfl⟩
  | restart => exact ⟨List.nodup_nil, fun u hu => (nomatch hu)⟩

/-- What is known stays known. -/
theorem has_step (hid : ∀ r, cfg.reqId r ≠ 0) (s : State) (e : Ev) (p : Key) (h : s.byPayload.has p = true) :
    (s.step cfg e).1.byPayload.has p = true := by
  cases stores_step cfg s e with
  | same g => rw [g.byPayload]; exact h
  | pending q g => rw [g.byPayload]; exact h
  | order b bs hp g =>
    rw [g.byPayload, updateDb_has cfg hid]
    show (s.byPayload.has p || _) = true
    rw [h]; rfl
  | caughtUp r hp g =>
    rw [g.byPayload]
    have := updateDb_has cfg hid (s.append (cfg.ledgerOf r) [r]) (cfg.ledgerOf r)
      ((s.ledger (cfg.ledgerOf r)).length + 1) [r] p
    rw [show [(r, (s.ledger (cfg.ledgerOf r)).length + 1)] = numbered ((s.ledger (cfg.ledgerOf r)).length + 1) [r] from rfl]
    rw [this]
    show (s.byPayload.has p || _) = true
    rw [h]; rfl

theorem replyOne_count (s : State) (t : Req) (l n : Nat) (p : Key) :
    (s.replyOne cfg t l n).2.countP (Out.replies cfg p) ≤ if cfg.prop.payload t = p then 1 else 0 := by
  unfold State.replyOne
  split
  · simp
  · rename_i c _
    cases c with
    | none => simp [toClient]
    | some c => by_cases h : cfg.prop.payload t = p <;> simp [toClient, Out.replies, h]

theorem replyAll_count (s : State) (l n : Nat) (ts : List Req) (p : Key) :
    (s.replyAll cfg l n ts).2.countP (Out.replies cfg p) ≤ (ts.map cfg.prop.payload).count p := by
  induction ts generalizing s n with
  | nil => simp [State.replyAll]
  | cons t ts ih =>
    rw [State.replyAll, List.map_cons, List.count_cons]
    dsimp only
    rw [List.countP_append]
    have h1 := replyOne_count cfg s t l n p
    have h2 := ih (s.replyOne cfg t l n).1 (n + 1)
    by_cases h : cfg.prop.payload t = p
    · rw [if_pos h] at h1; rw [if_pos (by simpa using h)]; omega
    · rw [if_neg h] at h1; rw [if_neg (by simpa using h)]; omega

/-- Whether a payload digest is known, as a number. -/
def seen (s : State) (p : Key) : Nat := if s.byPayload.has p then 1 else 0

theorem step_seen (hid : ∀ r, cfg.reqId r ≠ 0) {s : State} (o : Once cfg s) (e : Ev) (p : Key) :
    (if e.isCame then 0 else (s.step cfg e).2.countP (Out.replies cfg p)) + seen s p ≤ seen (s.step cfg e).1 p := by
  have mono : seen s p ≤ seen (s.step cfg e).1 p := by
    unfold seen
    split
    · rename_i h; rw [if_pos (has_step cfg hid s e p h)]; omega
    · omega
  have zero : (∀ x ∈ (s.step cfg e).2, Out.replies cfg p x = false) →
      (if e.isCame then 0 else (s.step cfg e).2.countP (Out.replies cfg p)) + seen s p ≤ seen (s.step cfg e).1 p := by
    intro h
    have : (s.step cfg e).2.countP (Out.replies cfg p) = 0 := by
      rw [List.countP_eq_zero]; intro x hx; simp [h x hx]
    rw [this]; split <;> omega
  by_cases ho : e = .order
  · subst ho
    show (s.order cfg).2.countP (Out.replies cfg p) + seen s p ≤ seen (s.order cfg).1 p
    cases hp : s.pending with
    | nil => unfold State.order; rw [hp]; simp
    | cons b bs =>
      have hu : s.uncommitted = b.valid ++ bs.flatMap Batch.valid := by
        unfold State.uncommitted; rw [hp, List.flatMap_cons]
      have hc : (s.order cfg).2.countP (Out.replies cfg p) ≤ (b.valid.map cfg.prop.payload).count p := by
        unfold State.order; rw [hp]; exact replyAll_count cfg _ _ _ _ _
      have hnd : (b.valid.map cfg.prop.payload).Nodup := by
        have := o.nodup
        rw [hu, List.map_append] at this
        exact (List.nodup_append.mp this).1
      have hle : (b.valid.map cfg.prop.payload).count p ≤ 1 := List.nodup_iff_count.mp hnd p
      by_cases hm : p ∈ b.valid.map cfg.prop.payload
      · obtain ⟨t, ht, rfl⟩ := List.mem_map.mp hm
        have h0 : s.byPayload.has (cfg.prop.payload t) = false := o.new t (by rw [hu]; exact List.mem_append_left _ ht)
        have h1 : (s.order cfg).1.byPayload.has (cfg.prop.payload t) = true := by
          unfold State.order; rw [hp]
          dsimp only
          rw [(same_replyAll cfg _ b.ledger _ b.valid).byPayload, updateDb_has cfg hid]
          have : b.valid.any (fun u => cfg.prop.payload u = cfg.prop.payload t) = true :=
            List.any_eq_true.mpr ⟨t, ht, by simp⟩
          rw [this, Bool.or_true]
        unfold seen
        rw [h0, h1]
        simp only [Bool.false_eq_true, if_false, if_true]
        omega
      · have := List.count_eq_zero.mpr hm
        have mono' : seen s p ≤ seen (s.order cfg).1 p := mono
        omega
  · by_cases hcame : e.isCame = true
    · rw [if_pos hcame]; omega
    · refine zero ?_
      intro x hx
      cases hr : Out.replies cfg p x with
      | false => rfl
      | true =>
        exfalso
        unfold Out.replies at hr
        split at hr
        · rcases (step_reply cfg hx).2 with ⟨r, rfl, _⟩ | ⟨rfl, _⟩
          · exact hcame rfl
          · exact ho rfl
        · cases hr

theorem pushed_seen (hl : ∀ r q, cfg.prop.payload r = cfg.prop.payload q → cfg.ledgerOf r = cfg.ledgerOf q)
    (hid : ∀ r, cfg.reqId r ≠ 0) {s : State} (o : Once cfg s) (es : List Ev) (p : Key) :
    (pushed (s.trace cfg es)).countP (Out.replies cfg p) + seen s p ≤ seen (s.run cfg es).1 p := by
  induction es generalizing s with
  | nil => simp [State.trace, State.run, pushed]
  | cons e es ih =>
    rw [State.trace, pushed_cons, List.countP_append]
    have h1 := step_seen cfg hid o e p
    have h2 := ih (once_step cfg hl hid s e o)
    have h3 : (State.run cfg s (e :: es)).1 = ((s.step cfg e).1.run cfg es).1 := rfl
    rw [h3]
    cases hc : e.isCame <;> simp only [hc, if_true, Bool.false_eq_true, if_false, List.countP_nil] at h1 ⊢ <;> omega

end Verif.Answers
