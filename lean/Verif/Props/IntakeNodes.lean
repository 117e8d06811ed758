import Verif.Props.Intake
/-!
# C107: nothing that nodes send is lost
-/
namespace Verif.Props
open Verif.Intake Verif.Intake.Spec

theorem fromOne_append (i : Verif.Intake.Bytes) (a b : List Recv) : fromOne i (a ++ b) = fromOne i a ++ fromOne i b := by
  simp [fromOne]

theorem fromRemotes_split (ok : Verif.Intake.Bytes → Verif.Intake.Bytes → Bool) (quota : Nat) :
    ∀ (rs : Remotes) (rx), (∀ p ∈ rs, ∀ sock, p.2 = some sock → ∀ r ∈ sock, single r) →
    ∃ ts, Split rs ts (fromRemotes ok quota rx rs).2.1 ∧
      (fromRemotes ok quota rx rs).1 = rx ++ handed ok (rs.map Prod.fst) ts := by
  intro rs
  induction rs with
  | nil => intro rx _; exact ⟨[], .nil, by simp [fromRemotes, handed]⟩
  | cons p rs ih =>
    intro rx h
    have hrs : ∀ p ∈ rs, ∀ sock, p.2 = some sock → ∀ r ∈ sock, single r :=
      fun p hp => h p (List.mem_cons_of_mem _ hp)
    obtain ⟨id, so⟩ := p
    cases so with
    | none =>
      obtain ⟨ts, h1, h2⟩ := ih rx hrs
      refine ⟨[] :: ts, .noSocket h1, ?_⟩
      simp only [fromRemotes]
      rw [h2]
      simp [handed, fromOne]
    | some so =>
      obtain ⟨tk, g1, g2, g3, _⟩ :=
        fromRemote_takes ok quota id so 0 rx (h (id, some so) (List.mem_cons_self ..) so rfl)
      obtain ⟨ts, h1, h2⟩ := ih (fromRemote ok quota id 0 rx so).rx hrs
      refine ⟨tk :: ts, ?_, ?_⟩
      · simp only [fromRemotes, g3, Bool.false_eq_true, if_false]
        have := Split.socket (ident := id) (taken := tk) (rest := (fromRemote ok quota id 0 rx so).rest) h1
        rw [← g1] at this
        exact this
      · simp only [fromRemotes, g3, Bool.false_eq_true, if_false]
        rw [h2, g2]
        simp [handed]

theorem _root_.Verif.Intake.Spec.Split.ids {a c : Remotes} {ts : List (List Recv)} (h : Split a ts c) : c.map Prod.fst = a.map Prod.fst := by
  induction h with
  | nil => rfl
  | noSocket _ ih => simp [ih]
  | socket _ ih => simp [ih]

theorem _root_.Verif.Intake.Spec.Split.add {a c : Remotes} {ts : List (List Recv)} (h : Split a ts c) (evs : List Ev) :
    Split (addAll a evs) ts (addAll c evs) := by
  induction h with
  | nil => exact .nil
  | noSocket _ ih => exact .noSocket ih
  | @socket ident taken rest rs ts rs' _ ih =>
    simp only [addAll, List.map_cons, Option.map_some, List.append_assoc] at ih ⊢
    exact .socket ih

theorem _root_.Verif.Intake.Spec.Split.trans (ok : Verif.Intake.Bytes → Verif.Intake.Bytes → Bool) {a b : Remotes} {ts : List (List Recv)}
    (h : Split a ts b) : ∀ {us c}, Split b us c →
    ∃ vs, Split a vs c ∧
      (handed ok (a.map Prod.fst) vs).Perm (handed ok (a.map Prod.fst) ts ++ handed ok (a.map Prod.fst) us) := by
  induction h with
  | nil => intro us c h'; cases h'; exact ⟨[], .nil, List.Perm.refl _⟩
  | @noSocket ident rs ts rs' _ ih =>
    intro us c h'
    cases h' with
    | noSocket h' =>
      obtain ⟨vs, h1, h2⟩ := ih h'
      refine ⟨[] :: vs, .noSocket h1, ?_⟩
      simpa [handed, fromOne] using h2
  | @socket ident taken rest rs ts rs' _ ih =>
    intro us c h'
    cases h' with
    | @socket _ taken' rest' _ us c' h' =>
      obtain ⟨vs, h1, h2⟩ := ih h'
      refine ⟨(taken ++ taken') :: vs, ?_, ?_⟩
      · rw [← List.append_assoc]; exact .socket h1
      · simp only [handed, List.map_cons, List.zip_cons_cons, List.flatMap_cons] at h2 ⊢
        rw [fromOne_append, List.filter_append, List.append_assoc, List.append_assoc]
        refine List.Perm.append_left _ ?_
        refine (List.Perm.append_left _ h2).trans ?_
        rw [← List.append_assoc, ← List.append_assoc]
        exact List.perm_append_comm.append_right _ 

theorem node_run (cfg : Cfg) : ∀ (evs : List Ev) (s : Node), Clean s.node → ClientOk s.client → wellSent evs →
    (∀ r ∈ fromClients evs, routed r) →
    ∃ takenL ts, s.node.listener ++ fromNodes evs = takenL ++ (s.run cfg evs).node.listener ∧
      Split (addAll s.node.remotes evs) ts (s.run cfg evs).node.remotes ∧
      ((s.run cfg evs).node.rx).Perm (s.node.rx ++ (messages takenL).filter (fun m => cfg.okNode m.1 m.2) ++
        handed cfg.okNode (s.node.remotes.map Prod.fst) ts) := by
  intro evs
  induction evs with
  | nil =>
    intro s hn hs _ _
    have hself : ∀ rs : Remotes, ∃ ts, Split (addAll rs []) ts rs ∧
        handed cfg.okNode (rs.map Prod.fst) ts = [] := by
      intro rs
      induction rs with
      | nil => exact ⟨[], .nil, rfl⟩
      | cons p rs ih =>
        obtain ⟨ts, h1, h2⟩ := ih
        obtain ⟨id, so⟩ := p
        cases so with
        | none => exact ⟨[] :: ts, .noSocket h1, by simpa [handed, fromOne] using h2⟩
        | some so =>
          refine ⟨[] :: ts, ?_, by simpa [handed, fromOne] using h2⟩
          have := Split.socket (ident := id) (taken := []) (rest := so) h1
          simpa [addAll, arrivals] using this
    obtain ⟨ts, h1, h2⟩ := hself s.node.remotes
    exact ⟨[], ts, by simp [Node.run, fromNodes], h1, by rw [h2]; simp [Node.run, messages]⟩
  | cons e evs ih =>
    intro s hn hs h hc
    have hrun : s.run cfg (e :: evs) = (s.step cfg e).run cfg evs := rfl
    rw [hrun]
    have h' : wellSent evs := ⟨fun r hr => h.1 r (List.mem_cons_of_mem _ hr),
      fun i r hr => h.2 i r (List.mem_cons_of_mem _ hr)⟩
    cases e with
    | fromClient r =>
      have hfc : fromClients (.fromClient r :: evs) = r :: fromClients evs := by simp [fromClients]
      rw [hfc] at hc
      refine ih (s.step cfg (.fromClient r)) hn ⟨?_, hs.remotes, hs.stopped⟩ h'
        (fun x hx => hc x (List.mem_cons_of_mem _ hx))
      intro x hx
      rcases List.mem_append.1 hx with hx | hx
      · exact hs.listener x hx
      · rw [List.mem_singleton.1 hx]; exact hc r (List.mem_cons_self ..)
    | fromNode r =>
      obtain ⟨tl, ts, h1, h2, h3⟩ := ih (s.step cfg (.fromNode r)) ⟨by
        intro x hx
        rcases List.mem_append.1 hx with hx | hx
        · exact hn.listener x hx
        · rw [List.mem_singleton.1 hx]; exact h.1 r (List.mem_cons_self ..), hn.remotes, hn.stopped⟩ hs h' hc
      refine ⟨tl, ts, ?_, h2, h3⟩
      rw [← h1]
      simp [Node.step, fromNodes]
    | fromRemote i r =>
      have hcl : Clean (s.step cfg (.fromRemote i r)).node := by
        refine ⟨hn.listener, ?_, hn.stopped⟩
        intro p hp sock hso x hx
        simp only [Node.step, List.mem_map] at hp
        obtain ⟨p0, hp0, rfl⟩ := hp
        split at hso
        · simp only [Option.map_eq_some_iff] at hso
          obtain ⟨so, hso, rfl⟩ := hso
          rcases List.mem_append.1 hx with hx | hx
          · exact hn.remotes p0 hp0 so hso x hx
          · rw [List.mem_singleton.1 hx]; exact h.2 i r (List.mem_cons_self ..)
        · exact hn.remotes p0 hp0 sock hso x hx
      obtain ⟨tl, ts, h1, h2, h3⟩ := ih (s.step cfg (.fromRemote i r)) hcl hs h' hc
      have hadd : addAll (s.step cfg (.fromRemote i r)).node.remotes evs
          = addAll s.node.remotes (.fromRemote i r :: evs) := by
        simp only [addAll, Node.step, List.map_map]
        refine List.map_congr_left ?_
        intro p _
        obtain ⟨id, so⟩ := p
        simp only [Function.comp_apply]
        by_cases hi : id = i
        · subst hi
          cases so <;> simp [arrivals]
        · have hi' : ¬ i = id := fun e => hi e.symm
          cases so <;> simp [arrivals, hi, hi']
      have hids : (s.step cfg (.fromRemote i r)).node.remotes.map Prod.fst = s.node.remotes.map Prod.fst := by
        simp only [Node.step, List.map_map]
        refine List.map_congr_left ?_
        intro p _
        simp only [Function.comp_apply]
        split <;> rfl
      rw [hadd] at h2
      rw [hids] at h3
      exact ⟨tl, ts, h1, h2, h3⟩
    | prod w =>
      have hn' : Clean (s.prod cfg w).node := by
        rw [prod_node cfg s w hs.stopped, hn.stopped]
        exact turn_clean _ _ _ hn
      have hs' : ClientOk (s.prod cfg w).client := by
        rcases prod_client_cases cfg s w with he | he
        · rw [he]; exact hs
        · rw [he]; exact turn_clientOk _ _ _ hs
      obtain ⟨tl, ts, h1, h2, h3⟩ := ih (s.step cfg (.prod w)) hn' hs' h' hc
      obtain ⟨tk, ht, _⟩ := listen_takes cfg.okNode s.ctl.node s.node.listener 0 0 s.node.rx hn.listener
      obtain ⟨us, k1, k2⟩ := fromRemotes_split cfg.okNode cfg.senderQuota s.node.remotes
        (listen cfg.okNode s.ctl.node 0 0 s.node.rx s.node.listener).rx hn.remotes
      have hst : (s.step cfg (.prod w)).node = {
          listener := (listen cfg.okNode s.ctl.node 0 0 s.node.rx s.node.listener).rest,
          remotes := (fromRemotes cfg.okNode cfg.senderQuota
            (listen cfg.okNode s.ctl.node 0 0 s.node.rx s.node.listener).rx s.node.remotes).2.1,
          rx := (fromRemotes cfg.okNode cfg.senderQuota
            (listen cfg.okNode s.ctl.node 0 0 s.node.rx s.node.listener).rx s.node.remotes).1,
          stopped := (fromRemotes cfg.okNode cfg.senderQuota
            (listen cfg.okNode s.ctl.node 0 0 s.node.rx s.node.listener).rx s.node.remotes).2.2 } := by
        simp only [Node.step]
        rw [prod_node cfg s w hs.stopped, hn.stopped]
        simp only [Bool.false_eq_true, if_false, Stack.turn, ht.raised]
      rw [hst] at h1 h2 h3
      simp only at h1 h2 h3
      have hev : addAll s.node.remotes (.prod w :: evs) = addAll s.node.remotes evs := by
        simp [addAll, arrivals]
      have hfn : fromNodes (.prod w :: evs) = fromNodes evs := by simp [fromNodes]
      obtain ⟨vs, v1, v2⟩ := (k1.add evs).trans cfg.okNode h2
      have hida : (addAll s.node.remotes evs).map Prod.fst = s.node.remotes.map Prod.fst := by
        simp [addAll, Function.comp_def]
      rw [hida] at v2
      refine ⟨tk ++ tl, vs, ?_, by rw [hev]; exact v1, ?_⟩
      · rw [hfn, List.append_assoc, ← h1, ← List.append_assoc, ← ht.split]
      · refine h3.trans ?_
        rw [k1.ids, k2, ht.rx, messages_append, List.filter_append]
        refine List.Perm.trans ?_ (List.Perm.append_left _ v2.symm)
        simp only [List.append_assoc]
        refine List.Perm.append_left _ (List.Perm.append_left _ ?_)
        rw [← List.append_assoc, ← List.append_assoc]
        exact List.perm_append_comm.append_right _

/-- Nothing a node sent is lost or taken twice: at every moment what was handed on is the accepted messages of
the first part of what came at the listener and of the first parts of what came from each node, and the rest
still waits in its order.

Partial: other nodes send one part in each message, see `C107_parts_stop`. -/
theorem C107_nodes_complete_partial (cfg : Cfg) (ctl : Control) (ids : List Verif.Intake.Bytes) (evs : List Ev)
    (h : wellSent evs) (hc : ∀ r ∈ fromClients evs, routed r) :
    let s := Node.run cfg { ctl := ctl, node := { remotes := ids.map (fun i => (i, some [])) } } evs
    ∃ takenL taken, fromNodes evs = takenL ++ s.node.listener ∧
      Split (ids.map (fun i => (i, some (arrivals i evs)))) taken s.node.remotes ∧
      s.node.rx.Perm ((messages takenL).filter (fun m => cfg.okNode m.1 m.2) ++ handed cfg.okNode ids taken) := by
  have := node_run cfg evs { ctl := ctl, node := { remotes := ids.map (fun i => (i, some [])) } }
    ⟨by intro r hr; simp at hr, by
      intro p hp sock hs r hr
      simp only [List.mem_map] at hp
      obtain ⟨i, _, rfl⟩ := hp
      cases hs
      simp at hr, rfl⟩ ⟨by intro r hr; simp at hr, rfl, rfl⟩ h hc
  obtain ⟨tl, ts, h1, h2, h3⟩ := this
  refine ⟨tl, ts, by simpa using h1, ?_, ?_⟩
  · simpa [addAll, Function.comp_def] using h2
  · simpa [Function.comp_def] using h3

/-- One of two messages of the first node is taken, the one of the second, and the one at the listener. -/
example :
    let cfg : Cfg := ⟨fun _ _ => true, fun _ _ => true, 1⟩
    let s : Node := { ctl := .static ⟨10, 100⟩ ⟨10, 100⟩, node := { remotes := [[1], [2]].map (fun i => (i, some [])) } }
    let t := s.run cfg [.fromRemote [1] (.parts [[5]]), .fromRemote [1] (.parts [[6]]), .fromRemote [2] (.parts [[7]]),
      .fromNode (.parts [[3], [8]]), .prod 0]
    t.node.rx = [([8], [3]), ([5], [1]), ([7], [2])] ∧
    t.node.remotes = [([1], some [.parts [[6]]]), ([2], some [])] := by decide

end Verif.Props
