import Verif.Proofs.Intake
/-!
# C107: what a node takes from its sockets in one turn
-/
namespace Verif.Props
open Verif.Intake Verif.Intake.Spec

/-! ## One turn at the listener -/

/-- What is taken in one turn is the first part of what waits. The messages in it that are accepted are handed
on in their order, no more than the quota allows, and the size was below the limit before each was taken.
If something is left, the number or the size of the messages has reached the limit. -/
theorem C107_turn (ok : Bytes → Bytes → Bool) (q : Quota) (rx : List (Bytes × Bytes)) (rs : List Recv)
    (h : ∀ r ∈ rs, routed r) :
    ∃ taken, rs = taken ++ (listen ok q 0 0 rx rs).rest ∧
      (listen ok q 0 0 rx rs).rx = rx ++ (messages taken).filter (fun m => ok m.1 m.2) ∧
      (messages taken).length ≤ q.count ∧
      (∀ l m, messages taken = l ++ [m] → bytes l < q.size) ∧
      ((listen ok q 0 0 rx rs).rest ≠ [] →
        (messages taken).length = q.count ∨ q.size ≤ bytes (messages taken)) := by
  obtain ⟨taken, ht, _⟩ := listen_takes ok q rs 0 0 rx h
  -- the last message that was taken
  have last : ∀ (tk : List Recv) (l : List (Bytes × Bytes)) (m : Bytes × Bytes), messages tk = l ++ [m] →
      ∃ a r b, tk = a ++ r :: b ∧ messages a = l := by
    intro tk
    induction tk with
    | nil => intro l m hl; simp [messages] at hl
    | cons r tk ih =>
      intro l m hl
      have hc : messages (r :: tk) = (message? r).toList ++ messages tk := by
        cases hm : message? r <;> simp [messages, hm]
      rw [hc] at hl
      by_cases hn : messages tk = []
      · refine ⟨[], r, tk, rfl, ?_⟩
        rw [hn, List.append_nil] at hl
        cases hm : message? r with
        | none => rw [hm] at hl; simp at hl
        | some x =>
          rw [hm] at hl
          have := congrArg List.length hl
          simp at this
          subst this
          rfl
      · obtain ⟨l', m', hl'⟩ : ∃ l' m', messages tk = l' ++ [m'] :=
          ⟨_, _, (List.dropLast_concat_getLast hn).symm⟩
        obtain ⟨a, x, b, rfl, ha⟩ := ih l' m' hl'
        refine ⟨r :: a, x, b, rfl, ?_⟩
        have hc' : messages (r :: a) = (message? r).toList ++ messages a := by
          cases hm : message? r <;> simp [messages, hm]
        rw [hl', ← List.append_assoc] at hl
        rw [hc', ha]
        exact (List.append_inj' hl rfl).1
  have hcount : (messages taken).length ≤ q.count := by
    by_cases hn : messages taken = []
    · simp [hn]
    · obtain ⟨l', m', hl'⟩ : ∃ l' m', messages taken = l' ++ [m'] :=
        ⟨_, _, (List.dropLast_concat_getLast hn).symm⟩
      obtain ⟨a, x, b, he, ha⟩ := last taken l' m' hl'
      have := (ht.within a x b he).1
      rw [hl', List.length_append, List.length_singleton, ← ha]
      omega
  refine ⟨taken, ht.split, ht.rx, hcount, ?_, ?_⟩
  · intro l m hl
    obtain ⟨a, x, b, he, ha⟩ := last taken l m hl
    have := (ht.within a x b he).2
    rw [ha] at this
    omega
  · intro hne
    have := ht.left hne
    omega

/-- Three messages wait, two may be taken; the empty one before them is passed over. -/
example : (∀ r ∈ [Recv.parts [[1], []], .parts [[1], [7]], .parts [[2], [8, 8]], .parts [[1], [9]]], routed r) ∧
    listen (fun m _ => m ≠ [7]) ⟨2, 100⟩ 0 0 []
      [.parts [[1], []], .parts [[1], [7]], .parts [[2], [8, 8]], .parts [[1], [9]]]
      = ⟨2, 3, [([8, 8], [2])], [.parts [[1], [9]]], false⟩ := by
  refine ⟨?_, by decide⟩
  intro r hr ps hp
  subst hp
  simp at hr
  rcases hr with rfl | rfl | rfl | rfl <;> decide

/-- The size is what ends the turn. -/
example : listen (fun _ _ => true) ⟨10, 2⟩ 0 0 [] [.parts [[1], [7]], .parts [[2], [8, 8]], .parts [[1], [9]]]
    = ⟨2, 3, [([7], [1]), ([8, 8], [2])], [.parts [[1], [9]]], false⟩ := by decide

/-- Whatever is no message is taken without being counted, so that there is no limit to what is taken in one
turn. -/
theorem C107_uncounted (ok : Bytes → Bytes → Bool) (q : Quota) (rx : List (Bytes × Bytes))
    (hq : 0 < q.count ∧ 0 < q.size) (rs : List Recv) (h : ∀ r ∈ rs, routed r ∧ message? r = none) :
    listen ok q 0 0 rx rs = ⟨0, 0, rx, [], false⟩ := by
  induction rs with
  | nil => rfl
  | cons r rs ih =>
    have ih := ih (fun r hr => h r (List.mem_cons_of_mem _ hr))
    obtain ⟨hr, hm⟩ := h r (List.mem_cons_self ..)
    cases r with
    | error => simp only [listen]; rw [if_pos hq]; exact ih
    | parts ps =>
      match ps, hr ps rfl with
      | [ident, msg], _ =>
        have he : msg = [] := by
          by_cases he : msg = []
          · exact he
          · simp [message?, he] at hm
        subst he
        simp only [listen]; rw [if_pos hq]; simpa using ih
      | _ :: _ :: _ :: _, _ =>
        simp only [listen]; rw [if_pos hq]; simpa using ih

/-- Any number of messages of three parts, of any size. -/
example (n : Nat) (b : Bytes) : ∀ r ∈ List.replicate n (Recv.parts [[1], b, b]), routed r ∧ message? r = none := by
  intro r hr
  rw [List.eq_of_mem_replicate hr]
  exact ⟨fun ps hp => by cases hp; simp, rfl⟩

/-! ## One turn at the sockets of the nodes this one connects to -/

/-- Each node gets its turn: what is taken from one is the first part of what waits from it, up to the quota
for one node, whatever the others have sent. -/
theorem C107_each_node (ok : Bytes → Bytes → Bool) (quota : Nat) (rx : List (Bytes × Bytes))
    (pre post : Remotes) (ident : Bytes) (sock : List Recv)
    (h : ∀ p ∈ pre ++ (ident, some sock) :: post, ∀ so, p.2 = some so → ∀ r ∈ so, single r) :
    ∃ taken rest pre' post' before after,
      fromRemotes ok quota rx (pre ++ (ident, some sock) :: post)
        = (before ++ (fromOne ident taken).filter (fun m => ok m.1 m.2) ++ after,
            pre' ++ (ident, some rest) :: post', false) ∧
      pre'.length = pre.length ∧ sock = taken ++ rest ∧
      (fromOne ident taken).length ≤ quota ∧
      (rest ≠ [] → (fromOne ident taken).length = quota) := by
  -- what is handed on is only ever added to
  have grows : ∀ (rs : Remotes) (rx : List (Bytes × Bytes)),
      (∀ p ∈ rs, ∀ so, p.2 = some so → ∀ r ∈ so, single r) →
      ∃ more, (fromRemotes ok quota rx rs).1 = rx ++ more := by
    intro rs
    induction rs with
    | nil => intro rx _; exact ⟨[], by simp [fromRemotes]⟩
    | cons p rs ih =>
      intro rx h
      have hrs := fun p hp => h p (List.mem_cons_of_mem _ hp)
      obtain ⟨id, so⟩ := p
      cases so with
      | none => exact ih rx hrs
      | some so =>
        obtain ⟨tk, _, h2, h3, _⟩ :=
          fromRemote_takes ok quota id so 0 rx (h (id, some so) (List.mem_cons_self ..) so rfl)
        obtain ⟨more, hmore⟩ := ih (fromRemote ok quota id 0 rx so).rx hrs
        refine ⟨(fromOne id tk).filter (fun m => ok m.1 m.2) ++ more, ?_⟩
        simp only [fromRemotes, h3, Bool.false_eq_true, if_false]
        rw [hmore, h2, List.append_assoc]
  induction pre generalizing rx with
  | nil =>
    have hpost : ∀ p ∈ post, ∀ so, p.2 = some so → ∀ r ∈ so, single r :=
      fun p hp => h p (List.mem_cons_of_mem _ hp)
    obtain ⟨tk, h1, h2, h3, h4, h5⟩ :=
      fromRemote_takes ok quota ident sock 0 rx (h (ident, some sock) (List.mem_cons_self ..) sock rfl)
    obtain ⟨more, hmore⟩ := grows post (fromRemote ok quota ident 0 rx sock).rx hpost
    have hlen : (fromOne ident tk).length ≤ quota := by
      rcases List.eq_nil_or_concat tk with rfl | ⟨l, r, rfl⟩
      · simp [fromOne]
      · have := h4 l r [] (by simp)
        have hle : (fromOne ident (l.concat r)).length ≤ (fromOne ident l).length + 1 := by
          have happ : fromOne ident (l ++ [r]) = fromOne ident l ++ fromOne ident [r] := by simp [fromOne]
          have hone : (fromOne ident [r]).length ≤ 1 := List.length_filterMap_le _ [r]
          rw [List.concat_eq_append, happ, List.length_append]
          omega
        omega
    refine ⟨tk, (fromRemote ok quota ident 0 rx sock).rest, [],
      (fromRemotes ok quota (fromRemote ok quota ident 0 rx sock).rx post).2.1, rx, more, ?_, rfl, h1, hlen, ?_⟩
    · simp only [List.nil_append, fromRemotes, h3, Bool.false_eq_true, if_false]
      refine Prod.ext ?_ (Prod.ext rfl ?_)
      · simp only; rw [hmore, h2]
      · exact (fromRemotes_clean ok quota post _ hpost).1
    · intro hne
      have := h5 hne
      omega
  | cons p pre ih =>
    have hrs : ∀ p ∈ pre ++ (ident, some sock) :: post, ∀ so, p.2 = some so → ∀ r ∈ so, single r :=
      fun p hp => h p (List.mem_cons_of_mem _ hp)
    obtain ⟨id, so⟩ := p
    cases so with
    | none =>
      obtain ⟨tk, rest, pre', post', b, a, e, hl, hrest⟩ := ih rx hrs
      refine ⟨tk, rest, (id, none) :: pre', post', b, a, ?_, by simp [hl], hrest⟩
      simp only [List.cons_append, fromRemotes]
      rw [e]
    | some so =>
      obtain ⟨_, _, _, h3, _⟩ :=
        fromRemote_takes ok quota id so 0 rx (h (id, some so) (List.mem_cons_self ..) so rfl)
      obtain ⟨tk, rest, pre', post', b, a, e, hl, hrest⟩ := ih (fromRemote ok quota id 0 rx so).rx hrs
      refine ⟨tk, rest, (id, some (fromRemote ok quota id 0 rx so).rest) :: pre', post', b, a, ?_,
        by simp [hl], hrest⟩
      simp only [List.cons_append, fromRemotes, h3, Bool.false_eq_true, if_false]
      rw [e]

/-- The first node sends more than its quota; the second gets its turn all the same. -/
example : fromRemotes (fun _ _ => true) 1 []
      [([1], some [.parts [[5]], .parts [[6]]]), ([2], none), ([3], some [.parts [[]], .parts [[7]]])]
    = ([([5], [1]), ([7], [3])], [([1], some [.parts [[6]]]), ([2], none), ([3], some [])], false) := by decide

/-! ## All turns -/

theorem client_run (cfg : Cfg) (s : Node) (evs : List Ev) (hs : ClientOk s.client)
    (h : ∀ r ∈ fromClients evs, routed r) :
    ClientOk (s.run cfg evs).client ∧
    ∃ taken, s.client.listener ++ fromClients evs = taken ++ (s.run cfg evs).client.listener ∧
      (s.run cfg evs).client.rx = s.client.rx ++ (messages taken).filter (fun m => cfg.okClient m.1 m.2) := by
  induction evs generalizing s with
  | nil => exact ⟨hs, [], by simp [Node.run, fromClients], by simp [Node.run, messages]⟩
  | cons e evs ih =>
    have hrun : s.run cfg (e :: evs) = (s.step cfg e).run cfg evs := rfl
    rw [hrun]
    cases e with
    | fromClient r =>
      have hfc : fromClients (.fromClient r :: evs) = r :: fromClients evs := by simp [fromClients]
      rw [hfc] at h ⊢
      have hs' : ClientOk (s.step cfg (.fromClient r)).client := by
        refine ⟨?_, hs.remotes, hs.stopped⟩
        intro x hx
        rcases List.mem_append.1 hx with hx | hx
        · exact hs.listener x hx
        · rw [List.mem_singleton.1 hx]; exact h r (List.mem_cons_self ..)
      obtain ⟨h1, tk, h2, h3⟩ := ih _ hs' (fun x hx => h x (List.mem_cons_of_mem _ hx))
      refine ⟨h1, tk, ?_, h3⟩
      rw [← h2]
      simp [Node.step]
    | fromNode r => exact ih (s.step cfg (.fromNode r)) hs h
    | fromRemote i r => exact ih (s.step cfg (.fromRemote i r)) hs h
    | prod w =>
      have hfc : fromClients (.prod w :: evs) = fromClients evs := by simp [fromClients]
      rw [hfc] at h ⊢
      rcases prod_client_cases cfg s w with hc | hc
      · have := ih (s.step cfg (.prod w)) (by simp only [Node.step]; rw [hc]; exact hs) h
        simp only [Node.step] at this ⊢
        rwa [hc] at this
      · have hs' := turn_clientOk cfg.okClient (s.ctl.update w).client cfg.senderQuota hs
        obtain ⟨h1, tk, h2, h3⟩ := ih (s.step cfg (.prod w)) (by simp only [Node.step]; rw [hc]; exact hs') h
        obtain ⟨tk0, ht, _⟩ :=
          listen_takes cfg.okClient (s.ctl.update w).client s.client.listener 0 0 s.client.rx hs.listener
        refine ⟨h1, tk0 ++ tk, ?_, ?_⟩
        · simp only [Node.step] at h2 ⊢
          rw [hc, turn_client _ _ _ hs] at h2
          rw [List.append_assoc, ← h2, ← List.append_assoc, ← ht.split]
        · rw [h3]
          simp only [Node.step]
          rw [hc, turn_client _ _ _ hs]
          simp only
          rw [ht.rx, messages_append, List.filter_append, List.append_assoc]

/-- Nothing a client sent is lost, taken twice or taken out of order: at every moment what was handed on is
the accepted messages of the first part of what came, and the rest still waits. -/
theorem C107_in_order (cfg : Cfg) (ctl : Control) (remotes : Remotes) (evs : List Ev)
    (h : ∀ r ∈ fromClients evs, routed r) :
    let s := Node.run cfg { ctl := ctl, node := { remotes := remotes } } evs
    ∃ taken, fromClients evs = taken ++ s.client.listener ∧
      s.client.rx = (messages taken).filter (fun m => cfg.okClient m.1 m.2) := by
  have := (client_run cfg { ctl := ctl, node := { remotes := remotes } } evs
    ⟨by intro r hr; simp at hr, rfl, rfl⟩ h).2
  simpa using this

/-- While the queue of requests is full nothing is taken from clients, in any number of turns. -/
theorem C107_full_queue (cfg : Cfg) (max : Nat) (n c : Quota) (ov : Bool) (s : Node)
    (hctl : s.ctl = .queue max n c ov) (hs : s.client.remotes = []) (evs : List Ev)
    (h : ∀ w, .prod w ∈ evs → max ≤ w) :
    (s.run cfg evs).client.rx = s.client.rx ∧
    (s.run cfg evs).client.listener = s.client.listener ++ fromClients evs := by
  induction evs generalizing s ov with
  | nil => exact ⟨rfl, by simp [Node.run, fromClients]⟩
  | cons e evs ih =>
    have hrun : s.run cfg (e :: evs) = (s.step cfg e).run cfg evs := rfl
    rw [hrun]
    have h' : ∀ w, .prod w ∈ evs → max ≤ w := fun w hw => h w (List.mem_cons_of_mem _ hw)
    cases e with
    | fromClient r =>
      obtain ⟨h1, h2⟩ := ih ov (s.step cfg (.fromClient r)) hctl hs h'
      refine ⟨h1, ?_⟩
      rw [h2]
      simp [Node.step, fromClients]
    | fromNode r => exact ih ov (s.step cfg (.fromNode r)) hctl hs h'
    | fromRemote i r => exact ih ov (s.step cfg (.fromRemote i r)) hctl hs h'
    | prod w =>
      have hw := h w (List.mem_cons_self ..)
      have hfc : fromClients (.prod w :: evs) = fromClients evs := by simp [fromClients]
      rw [hfc]
      have hov : (s.ctl.update w).client = ⟨0, 0⟩ := by
        rw [hctl]; simp [Control.update, Control.client, hw]
      -- with no quota nothing is taken
      have hturn : (s.client.turn cfg.okClient ⟨0, 0⟩ cfg.senderQuota).rx = s.client.rx ∧
          (s.client.turn cfg.okClient ⟨0, 0⟩ cfg.senderQuota).listener = s.client.listener ∧
          (s.client.turn cfg.okClient ⟨0, 0⟩ cfg.senderQuota).remotes = [] := by
        unfold Stack.turn
        cases hl : s.client.listener <;> simp [listen, hs, fromRemotes]
      have hctl' : ∃ ov', (s.prod cfg w).ctl = .queue max n c ov' := by
        unfold Node.prod
        split
        · exact ⟨ov, hctl⟩
        · simp only
          split <;> exact ⟨decide (w ≥ max), by rw [hctl]; rfl⟩
      obtain ⟨ov', hctl'⟩ := hctl'
      have hcl : (s.prod cfg w).client.rx = s.client.rx ∧
          (s.prod cfg w).client.listener = s.client.listener ∧ (s.prod cfg w).client.remotes = [] := by
        rcases prod_client_cases cfg s w with hc | hc
        · rw [hc]; exact ⟨rfl, rfl, hs⟩
        · rw [hc, hov]; exact hturn
      obtain ⟨h1, h2⟩ := ih ov' (s.prod cfg w) hctl' hcl.2.2 h'
      simp only [Node.step]
      exact ⟨by rw [h1, hcl.1], by rw [h2, hcl.2.1]⟩

/-- What is taken from nodes does not depend on clients, or on how many requests wait. -/
theorem C107_nodes_unaffected (cfg : Cfg) (s : Node) (evs : List Ev) (hs : ClientOk s.client)
    (h : ∀ r ∈ fromClients evs, routed r) :
    (s.run cfg evs).node = (s.run cfg (withoutClients evs)).node := by
  suffices H : ∀ (evs : List Ev) (s t : Node), ClientOk s.client → ClientOk t.client → s.node = t.node →
      s.ctl.node = t.ctl.node → (∀ r ∈ fromClients evs, routed r) →
      (s.run cfg evs).node = (t.run cfg (withoutClients evs)).node from H evs s s hs hs rfl rfl h
  intro evs
  induction evs with
  | nil => intro s t _ _ hn _ _; exact hn
  | cons e evs ih =>
    intro s t hs ht hn hq h
    have hrun : s.run cfg (e :: evs) = (s.step cfg e).run cfg evs := rfl
    rw [hrun]
    cases e with
    | fromClient r =>
      have hfc : fromClients (.fromClient r :: evs) = r :: fromClients evs := by simp [fromClients]
      rw [hfc] at h
      have hw : withoutClients (.fromClient r :: evs) = withoutClients evs := by simp [withoutClients]
      rw [hw]
      refine ih _ t ⟨?_, hs.remotes, hs.stopped⟩ ht hn hq (fun x hx => h x (List.mem_cons_of_mem _ hx))
      intro x hx
      rcases List.mem_append.1 hx with hx | hx
      · exact hs.listener x hx
      · rw [List.mem_singleton.1 hx]; exact h r (List.mem_cons_self ..)
    | fromNode r =>
      have hw : withoutClients (.fromNode r :: evs) = .fromNode r :: withoutClients evs := by
        simp [withoutClients]
      rw [hw]
      exact ih (s.step cfg (.fromNode r)) (t.step cfg (.fromNode r)) hs ht
        (by simp only [Node.step]; rw [hn]) hq h
    | fromRemote i r =>
      have hw : withoutClients (.fromRemote i r :: evs) = .fromRemote i r :: withoutClients evs := by
        simp [withoutClients]
      rw [hw]
      exact ih (s.step cfg (.fromRemote i r)) (t.step cfg (.fromRemote i r)) hs ht
        (by simp only [Node.step]; rw [hn]) hq h
    | prod w =>
      have hw : withoutClients (.prod w :: evs) = .prod 0 :: withoutClients evs := by
        simp [withoutClients]
      rw [hw]
      have hok : ∀ (x : Node) (w : Nat), ClientOk x.client → ClientOk (x.prod cfg w).client := by
        intro x w hx
        rcases prod_client_cases cfg x w with hc | hc
        · rw [hc]; exact hx
        · rw [hc]; exact turn_clientOk _ _ _ hx
      refine ih (s.step cfg (.prod w)) (t.step cfg (.prod 0)) (hok s w hs) (hok t 0 ht) ?_ ?_ h
      · simp only [Node.step]
        rw [prod_node cfg s w hs.stopped, prod_node cfg t 0 ht.stopped, hn, hq]
      · simp only [Node.step]
        rw [prod_ctl_node, prod_ctl_node, hq]

/-- Once the queue has room again all that waits is taken, in at most one turn more than messages wait. -/
theorem C107_resumes (cfg : Cfg) (max : Nat) (n c : Quota) (ov : Bool) (s : Node)
    (hctl : s.ctl = .queue max n c ov) (hc : 0 < c.count ∧ 0 < c.size)
    (hs : ClientOk s.client) (hn : Clean s.node) (ws : List Nat) (hw : ∀ w ∈ ws, w < max)
    (hlen : (messages s.client.listener).length < ws.length) :
    (s.run cfg (ws.map .prod)).client.listener = [] ∧
    (s.run cfg (ws.map .prod)).client.rx
      = s.client.rx ++ (messages s.client.listener).filter (fun m => cfg.okClient m.1 m.2) := by
  suffices H : ∀ (ws : List Nat) (s : Node) (ov : Bool), s.ctl = .queue max n c ov → ClientOk s.client →
      Clean s.node → (∀ w ∈ ws, w < max) →
      (s.client.listener = [] ∨ (messages s.client.listener).length < ws.length) →
      (s.run cfg (ws.map .prod)).client.listener = [] by
    have h1 := H ws s ov hctl hs hn hw (Or.inr hlen)
    have hfc : fromClients (ws.map Ev.prod) = [] := by
      clear h1 hlen hw H
      induction ws with
      | nil => rfl
      | cons w ws ih => simp [fromClients]
    obtain ⟨_, tk, h2, h3⟩ := client_run cfg s (ws.map .prod) hs (by rw [hfc]; intro r hr; simp at hr)
    rw [hfc, h1, List.append_nil, List.append_nil] at h2
    exact ⟨h1, by rw [h3, h2]⟩
  intro ws
  induction ws with
  | nil =>
    intro s ov _ _ _ _ h
    rcases h with h | h
    · exact h
    · simp at h
  | cons w ws ih =>
    intro s ov hctl hs hn hw h
    have hov : (s.ctl.update w).client = c := by
      have : ¬ max ≤ w := by have := hw w (List.mem_cons_self ..); omega
      rw [hctl]; simp [Control.update, Control.client, this]
    have hnt := turn_clean cfg.okNode (s.ctl.update w).node cfg.senderQuota hn
    have hprod : s.prod cfg w = {
        ctl := s.ctl.update w,
        node := s.node.turn cfg.okNode (s.ctl.update w).node cfg.senderQuota,
        client := s.client.turn cfg.okClient c cfg.senderQuota } := by
      unfold Node.prod
      simp only [hn.stopped, hs.stopped, Bool.false_eq_true, or_self, if_false, hnt.stopped, hov]
    have hrun : s.run cfg ((w :: ws).map .prod) = (s.prod cfg w).run cfg (ws.map .prod) := rfl
    rw [hrun, hprod]
    refine ih _ (decide (w ≥ max)) (by simp only; rw [hctl]; rfl) (turn_clientOk _ _ _ hs) hnt
      (fun x hx => hw x (List.mem_cons_of_mem _ hx)) ?_
    simp only
    rw [turn_client _ _ _ hs]
    simp only
    obtain ⟨tk, ht, _⟩ := listen_takes cfg.okClient c s.client.listener 0 0 s.client.rx hs.listener
    by_cases hr : (listen cfg.okClient c 0 0 s.client.rx s.client.listener).rest = []
    · exact Or.inl hr
    · right
      rcases h with h | h
      · exact absurd (by rw [h]; rfl) hr
      · have hsome : 0 < (messages tk).length := by
          rcases Nat.eq_zero_or_pos (messages tk).length with h0 | h0
          · have := ht.left hr
            rw [List.eq_nil_of_length_eq_zero h0] at this
            simp [bytes] at this
            omega
          · exact h0
        have hsplit := congrArg (fun l => (messages l).length) ht.split
        simp only [messages_append, List.length_append] at hsplit
        simp only [List.length_cons] at h
        omega

/-- The queue is full, then it has room. -/
example :
    let cfg : Cfg := ⟨fun _ _ => true, fun _ _ => true, 5⟩
    let s : Node := { ctl := .queue 2 ⟨10, 100⟩ ⟨1, 100⟩ false }
    let full := s.run cfg [.fromClient (.parts [[1], [7]]), .fromClient (.parts [[1], [8]]),
      .fromNode (.parts [[4], [9]]), .prod 2, .prod 3]
    full.client.rx = [] ∧ full.node.rx = [([9], [4])] ∧ full.client.listener.length = 2 ∧
    (full.run cfg [.prod 1, .prod 0]).client.rx = [([7], [1]), ([8], [1])] := by decide

/-- Nodes and clients have quotas of their own. -/
example :
    let cfg : Cfg := ⟨fun _ _ => true, fun _ _ => true, 5⟩
    let evs : List Ev := [.fromClient (.parts [[1], [7]]), .fromClient (.parts [[1], [8]]),
      .fromNode (.parts [[4], [9]]), .fromNode (.parts [[5], [9]]), .prod 9]
    let s := Node.run cfg { ctl := .static ⟨2, 100⟩ ⟨1, 100⟩ } evs
    let t := Node.run cfg { ctl := .queue 10 ⟨2, 100⟩ ⟨1, 100⟩ true } evs
    s.client.rx = [([7], [1])] ∧ s.node.rx = [([9], [4]), ([9], [5])] ∧
    t.client.rx = [([7], [1])] ∧ t.node.rx = [([9], [4]), ([9], [5])] := by decide

/-! ## A message of several parts -/

/-- One message with more or fewer parts than one, from a node this one connects to, ends the process: nothing
is taken any more from any node or client. -/
theorem C107_parts_stop (cfg : Cfg) (s : Node) (pre post : Remotes) (ident : Bytes) (ps : List Bytes)
    (sock : List Recv) (w : Nat) (hq : 0 < cfg.senderQuota) (hps : ps.length ≠ 1)
    (hl : ∀ r ∈ s.node.listener, routed r) (hrun : s.node.stopped = false ∧ s.client.stopped = false)
    (hrem : s.node.remotes = pre ++ (ident, some (.parts ps :: sock)) :: post) (evs : List Ev) :
    (s.prod cfg w).node.stopped = true ∧
    ((s.prod cfg w).run cfg evs).node.rx = (s.prod cfg w).node.rx ∧
    ((s.prod cfg w).run cfg evs).client.rx = s.client.rx := by
  have hfr : ∀ (pre : Remotes) (rx : List (Bytes × Bytes)),
      (fromRemotes cfg.okNode cfg.senderQuota rx (pre ++ (ident, some (.parts ps :: sock)) :: post)).2.2 = true := by
    intro pre
    induction pre with
    | nil =>
      intro rx
      have : (fromRemote cfg.okNode cfg.senderQuota ident 0 rx (.parts ps :: sock)).raised = true := by
        match ps, hps with
        | [], _ => simp [fromRemote, hq]
        | _ :: _ :: _, _ => simp [fromRemote, hq]
      simp [fromRemotes, this]
    | cons p pre ih =>
      intro rx
      obtain ⟨id, so⟩ := p
      cases so with
      | none => simp only [List.cons_append, fromRemotes]; exact ih rx
      | some so =>
        simp only [List.cons_append, fromRemotes]
        split
        · rfl
        · exact ih _
  obtain ⟨tk, ht, _⟩ := listen_takes cfg.okNode (s.ctl.update w).node s.node.listener 0 0 s.node.rx hl
  have hst : (s.node.turn cfg.okNode (s.ctl.update w).node cfg.senderQuota).stopped = true := by
    unfold Stack.turn
    simp only [ht.raised, Bool.false_eq_true, if_false]
    rw [hrem]
    exact hfr pre _
  have hprod : s.prod cfg w = { s with
      ctl := s.ctl.update w,
      node := s.node.turn cfg.okNode (s.ctl.update w).node cfg.senderQuota } := by
    unfold Node.prod
    simp only [hrun.1, hrun.2, Bool.false_eq_true, or_self, if_false, hst, if_true]
  have stay : ∀ (evs : List Ev) (t : Node), t.node.stopped = true →
      (t.run cfg evs).node.rx = t.node.rx ∧ (t.run cfg evs).client.rx = t.client.rx := by
    intro evs
    induction evs with
    | nil => intro t _; exact ⟨rfl, rfl⟩
    | cons e evs ih =>
      intro t ht
      have hr : t.run cfg (e :: evs) = (t.step cfg e).run cfg evs := rfl
      rw [hr]
      cases e with
      | fromClient r => exact ih (t.step cfg (.fromClient r)) ht
      | fromNode r => exact ih (t.step cfg (.fromNode r)) ht
      | fromRemote i r => exact ih (t.step cfg (.fromRemote i r)) ht
      | prod w =>
        have he : t.step cfg (.prod w) = t := by simp [Node.step, Node.prod, ht]
        rw [he]
        exact ih t ht
  have hst' : (s.prod cfg w).node.stopped = true := by rw [hprod]; exact hst
  refine ⟨hst', (stay evs _ hst').1, ?_⟩
  rw [(stay evs _ hst').2, hprod]

/-- A node sends two parts; what another one sent before that and what a client sent is never taken. -/
example :
    let cfg : Cfg := ⟨fun _ _ => true, fun _ _ => true, 5⟩
    let s : Node := { ctl := .static ⟨10, 100⟩ ⟨10, 100⟩, node := { remotes := [([1], some []), ([2], some [])] } }
    let t := s.run cfg [.fromClient (.parts [[9], [7]]), .fromRemote [2] (.parts [[8]]),
      .fromRemote [1] (.parts [[5], [6]]), .prod 0, .prod 0, .prod 0]
    t.node.stopped = true ∧ t.node.rx = [] ∧ t.client.rx = [] := by decide

/-- As long as no node sends such a message the process goes on. -/
theorem C107_goes_on_partial (cfg : Cfg) (ctl : Control) (ids : List Bytes) (evs : List Ev)
    (h : wellSent evs) (hc : ∀ r ∈ fromClients evs, routed r) :
    let s := Node.run cfg { ctl := ctl, node := { remotes := ids.map (fun i => (i, some [])) } } evs
    s.node.stopped = false ∧ s.client.stopped = false := by
  suffices H : ∀ (evs : List Ev) (s : Node), Clean s.node → ClientOk s.client → wellSent evs →
      (∀ r ∈ fromClients evs, routed r) → Clean (s.run cfg evs).node ∧ ClientOk (s.run cfg evs).client by
    have := H evs { ctl := ctl, node := { remotes := ids.map (fun i => (i, some [])) } }
      ⟨by intro r hr; simp at hr, by
        intro p hp sock hs r hr
        simp only [List.mem_map] at hp
        obtain ⟨i, _, rfl⟩ := hp
        cases hs
        simp at hr, rfl⟩ ⟨by intro r hr; simp at hr, rfl, rfl⟩ h hc
    exact ⟨this.1.stopped, this.2.stopped⟩
  intro evs
  induction evs with
  | nil => intro s hn hs _ _; exact ⟨hn, hs⟩
  | cons e evs ih =>
    intro s hn hs h hc
    have hrun : s.run cfg (e :: evs) = (s.step cfg e).run cfg evs := rfl
    rw [hrun]
    have h' : wellSent evs := ⟨fun r hr => h.1 r (List.mem_cons_of_mem _ hr),
      fun i r hr => h.2 i r (List.mem_cons_of_mem _ hr)⟩
    cases e with
    | fromClient r =>
      have hfc : fromClients (.fromClient r :: evs) = r :: fromClients evs := by simp [fromClients]
      rw [hfc] at hc
      refine ih (s.step cfg (.fromClient r)) hn ⟨?_, hs.remotes, hs.stopped⟩ h'
        (fun x hx => hc x (List.mem_cons_of_mem _ hx))
      intro x hx
      rcases List.mem_append.1 hx with hx | hx
      · exact hs.listener x hx
      · rw [List.mem_singleton.1 hx]; exact hc r (List.mem_cons_self ..)
    | fromNode r =>
      refine ih (s.step cfg (.fromNode r)) ⟨?_, hn.remotes, hn.stopped⟩ hs h' hc
      intro x hx
      rcases List.mem_append.1 hx with hx | hx
      · exact hn.listener x hx
      · rw [List.mem_singleton.1 hx]; exact h.1 r (List.mem_cons_self ..)
    | fromRemote i r =>
      refine ih (s.step cfg (.fromRemote i r)) ⟨hn.listener, ?_, hn.stopped⟩ hs h' hc
      intro p hp sock hso x hx
      simp only [Node.step, List.mem_map] at hp
      obtain ⟨p0, hp0, rfl⟩ := hp
      split at hso
      · simp only [Option.map_eq_some_iff] at hso
        obtain ⟨so, hso, rfl⟩ := hso
        rcases List.mem_append.1 hx with hx | hx
        · exact hn.remotes p0 hp0 so hso x hx
        · rw [List.mem_singleton.1 hx]; exact h.2 i r (List.mem_cons_self ..)
      · exact hn.remotes p0 hp0 sock hso x hx
    | prod w =>
      have hn' : Clean (s.prod cfg w).node := by
        rw [prod_node cfg s w hs.stopped, hn.stopped]
        exact turn_clean _ _ _ hn
      have hs' : ClientOk (s.prod cfg w).client := by
        rcases prod_client_cases cfg s w with he | he
        · rw [he]; exact hs
        · rw [he]; exact turn_clientOk _ _ _ hs
      exact ih (s.step cfg (.prod w)) hn' hs' h' hc

/-- Such a history. -/
example : wellSent [.fromNode (.parts [[4], [9]]), .fromRemote [1] (.parts [[5]]), .prod 0] ∧
    (∀ r ∈ fromClients [.fromNode (.parts [[4], [9]]), .fromRemote [1] (.parts [[5]]), .prod 0], routed r) := by
  refine ⟨⟨?_, ?_⟩, by intro r hr; simp [fromClients] at hr⟩
  · intro r hr ps hp; subst hp; simp at hr; subst hr; decide
  · intro i r hr ps hp; subst hp; simp at hr; rw [hr.2]; rfl

end Verif.Props
