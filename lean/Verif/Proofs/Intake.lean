import Verif.Spec.Intake
/-!
# Proofs about what is taken from the sockets
-/
namespace Verif.Intake
open Spec

theorem messages_append (a b : List Recv) : messages (a ++ b) = messages a ++ messages b := by
  simp [messages]

theorem bytes_append (a b : List (Bytes × Bytes)) : bytes (a ++ b) = bytes a + bytes b := by
  simp [bytes]

/-- What one loop takes. -/
structure Takes (acc : Bytes × Bytes → Bool) (ms : List Recv → List (Bytes × Bytes)) (cnt lim : Nat)
    (i sz : Nat) (rx : List (Bytes × Bytes)) (rs : List Recv) (o : Out) (taken : List Recv) : Prop where
  split : rs = taken ++ o.rest
  rx : o.rx = rx ++ (ms taken).filter acc
  count : o.count = i + (ms taken).length
  raised : o.raised = false
  within : ∀ l r t, taken = l ++ r :: t → i + (ms l).length < cnt ∧ sz + bytes (ms l) < lim
  left : o.rest ≠ [] → cnt ≤ i + (ms taken).length ∨ lim ≤ sz + bytes (ms taken)

theorem listen_takes (ok : Bytes → Bytes → Bool) (q : Quota) : ∀ (rs : List Recv) (i sz : Nat) (rx),
    (∀ r ∈ rs, routed r) →
    ∃ taken, Takes (fun m => ok m.1 m.2) messages q.count q.size i sz rx rs (listen ok q i sz rx rs) taken ∧
      (listen ok q i sz rx rs).size = sz + bytes (messages taken) := by
  intro rs
  induction rs with
  | nil =>
    intro i sz rx _
    exact ⟨[], ⟨rfl, by simp [listen, messages], rfl, rfl, by intro l r t h; simp at h, by simp [listen]⟩,
      by simp [listen, messages, bytes]⟩
  | cons r rest ih =>
    intro i sz rx h
    have hrest : ∀ r ∈ rest, routed r := fun r hr => h r (List.mem_cons_of_mem _ hr)
    by_cases hc : i < q.count ∧ sz < q.size
    · -- something that is no message is passed over
      have skip : message? r = none → listen ok q i sz rx (r :: rest) = listen ok q i sz rx rest →
          ∃ taken, Takes (fun m => ok m.1 m.2) messages q.count q.size i sz rx (r :: rest)
            (listen ok q i sz rx (r :: rest)) taken ∧
            (listen ok q i sz rx (r :: rest)).size = sz + bytes (messages taken) := by
        intro hm he
        obtain ⟨taken, ht, hs⟩ := ih i sz rx hrest
        have hmm : ∀ l, messages (r :: l) = messages l := by
          intro l; simp [messages, hm]
        refine ⟨r :: taken, ⟨?_, ?_, ?_, ?_, ?_, ?_⟩, ?_⟩
        · rw [he, List.cons_append, ← ht.split]
        · rw [he, hmm]; exact ht.rx
        · rw [he, hmm]; exact ht.count
        · rw [he]; exact ht.raised
        · intro l x t hl
          cases l with
          | nil => simpa [messages, bytes] using hc
          | cons y l =>
            simp only [List.cons_append, List.cons.injEq] at hl
            obtain ⟨rfl, hl⟩ := hl
            rw [hmm]
            exact ht.within l x t hl
        · rw [he, hmm]; exact ht.left
        · rw [he, hmm]; exact hs
      cases r with
      | error => exact skip rfl (by simp only [listen]; rw [if_pos hc])
      | parts ps =>
        match ps, h (.parts ps) (List.mem_cons_self ..) ps rfl with
        | [ident, msg], _ =>
          by_cases he : msg = []
          · subst he
            exact skip rfl (by simp only [listen]; rw [if_pos hc]; simp)
          · have hstep : listen ok q i sz rx (.parts [ident, msg] :: rest)
                = listen ok q (i + 1) (sz + msg.length)
                  (if ok msg ident then rx ++ [(msg, ident)] else rx) rest := by
              simp only [listen]; rw [if_pos hc]; simp [he]
            obtain ⟨taken, ht, hs⟩ := ih (i + 1) (sz + msg.length)
              (if ok msg ident then rx ++ [(msg, ident)] else rx) hrest
            have hmm : ∀ l, messages (.parts [ident, msg] :: l) = (msg, ident) :: messages l := by
              intro l; simp [messages, message?, he]
            have hb : ∀ l, bytes ((msg, ident) :: l) = msg.length + bytes l := by
              intro l; simp [bytes]
            refine ⟨.parts [ident, msg] :: taken, ⟨?_, ?_, ?_, ?_, ?_, ?_⟩, ?_⟩
            · rw [hstep, List.cons_append, ← ht.split]
            · rw [hstep, hmm, ht.rx]
              by_cases hok : ok msg ident = true
              · simp [hok]
              · simp [hok]
            · rw [hstep, hmm, ht.count, List.length_cons]; omega
            · rw [hstep]; exact ht.raised
            · intro l x t hl
              cases l with
              | nil => simpa [messages, bytes] using hc
              | cons y l =>
                simp only [List.cons_append, List.cons.injEq] at hl
                obtain ⟨rfl, hl⟩ := hl
                have := ht.within l x t hl
                rw [hmm, hb, List.length_cons]
                omega
            · rw [hstep, hmm, hb, List.length_cons]
              intro hne
              have := ht.left hne
              omega
            · rw [hstep, hmm, hb, hs]; omega
        | _ :: _ :: _ :: _, _ =>
          exact skip rfl (by simp only [listen]; rw [if_pos hc]; simp)
    · have he : listen ok q i sz rx (r :: rest) = ⟨i, sz, rx, r :: rest, false⟩ := by
        simp only [listen]; rw [if_neg hc]
      refine ⟨[], ⟨by rw [he]; rfl, by simp [he, messages], by rw [he]; rfl, by rw [he], ?_, ?_⟩, ?_⟩
      · intro l x t hl; simp at hl
      · intro _
        simp only [messages, List.filterMap_nil, List.length_nil, bytes, List.map_nil, List.sum_nil]
        omega
      · rw [he]; simp [messages, bytes]

theorem fromRemote_takes (ok : Bytes → Bytes → Bool) (quota : Nat) (ident : Bytes) :
    ∀ (rs : List Recv) (i : Nat) (rx), (∀ r ∈ rs, single r) →
    ∃ taken, rs = taken ++ (fromRemote ok quota ident i rx rs).rest ∧
      (fromRemote ok quota ident i rx rs).rx = rx ++ (fromOne ident taken).filter (fun m => ok m.1 m.2) ∧
      (fromRemote ok quota ident i rx rs).raised = false ∧
      (∀ l r t, taken = l ++ r :: t → i + (fromOne ident l).length < quota) ∧
      ((fromRemote ok quota ident i rx rs).rest ≠ [] → quota ≤ i + (fromOne ident taken).length) := by
  intro rs
  induction rs with
  | nil =>
    intro i rx _
    exact ⟨[], rfl, by simp [fromRemote, fromOne], rfl, by intro l r t h; simp at h, by simp [fromRemote]⟩
  | cons r rest ih =>
    intro i rx h
    have hrest : ∀ r ∈ rest, single r := fun r hr => h r (List.mem_cons_of_mem _ hr)
    by_cases hc : i < quota
    · have skip : (∀ l, fromOne ident (r :: l) = fromOne ident l) →
          fromRemote ok quota ident i rx (r :: rest) = fromRemote ok quota ident i rx rest →
          ∃ taken, r :: rest = taken ++ (fromRemote ok quota ident i rx (r :: rest)).rest ∧
            (fromRemote ok quota ident i rx (r :: rest)).rx
              = rx ++ (fromOne ident taken).filter (fun m => ok m.1 m.2) ∧
            (fromRemote ok quota ident i rx (r :: rest)).raised = false ∧
            (∀ l x t, taken = l ++ x :: t → i + (fromOne ident l).length < quota) ∧
            ((fromRemote ok quota ident i rx (r :: rest)).rest ≠ [] →
              quota ≤ i + (fromOne ident taken).length) := by
        intro hmm he
        obtain ⟨taken, h1, h2, h3, h4, h5⟩ := ih i rx hrest
        refine ⟨r :: taken, ?_, ?_, ?_, ?_, ?_⟩
        · rw [he, List.cons_append, ← h1]
        · rw [he, hmm]; exact h2
        · rw [he]; exact h3
        · intro l x t hl
          cases l with
          | nil => simpa [fromOne] using hc
          | cons y l =>
            simp only [List.cons_append, List.cons.injEq] at hl
            obtain ⟨rfl, hl⟩ := hl
            rw [hmm]
            exact h4 l x t hl
        · rw [he, hmm]; exact h5
      cases r with
      | error => exact skip (fun l => by simp [fromOne]) (by simp only [fromRemote]; rw [if_pos hc])
      | parts ps =>
        match ps, h (.parts ps) (List.mem_cons_self ..) ps rfl with
        | [msg], _ =>
          by_cases he : msg = []
          · subst he
            exact skip (fun l => by simp [fromOne]) (by simp only [fromRemote]; rw [if_pos hc]; simp)
          · have hstep : fromRemote ok quota ident i rx (.parts [msg] :: rest)
                = fromRemote ok quota ident (i + 1)
                  (if ok msg ident then rx ++ [(msg, ident)] else rx) rest := by
              simp only [fromRemote]; rw [if_pos hc]; simp [he]
            obtain ⟨taken, h1, h2, h3, h4, h5⟩ := ih (i + 1)
              (if ok msg ident then rx ++ [(msg, ident)] else rx) hrest
            have hmm : ∀ l, fromOne ident (.parts [msg] :: l) = (msg, ident) :: fromOne ident l := by
              intro l; simp [fromOne, he]
            refine ⟨.parts [msg] :: taken, ?_, ?_, ?_, ?_, ?_⟩
            · rw [hstep, List.cons_append, ← h1]
            · rw [hstep, hmm, h2]
              by_cases hok : ok msg ident = true
              · simp [hok]
              · simp [hok]
            · rw [hstep]; exact h3
            · intro l x t hl
              cases l with
              | nil => simpa [fromOne] using hc
              | cons y l =>
                simp only [List.cons_append, List.cons.injEq] at hl
                obtain ⟨rfl, hl⟩ := hl
                have := h4 l x t hl
                rw [hmm, List.length_cons]
                omega
            · rw [hstep, hmm, List.length_cons]
              intro hne
              have := h5 hne
              omega
    · have he : fromRemote ok quota ident i rx (r :: rest) = ⟨i, 0, rx, r :: rest, false⟩ := by
        simp only [fromRemote]; rw [if_neg hc]
      refine ⟨[], by rw [he]; rfl, by simp [he, fromOne], by rw [he], ?_, ?_⟩
      · intro l x t hl; simp at hl
      · intro _
        simp only [fromOne, List.filterMap_nil, List.length_nil]
        omega

/-- Nobody sends anything the loops cannot unpack. -/
structure Clean (s : Stack) : Prop where
  listener : ∀ r ∈ s.listener, routed r
  remotes : ∀ p ∈ s.remotes, ∀ sock, p.2 = some sock → ∀ r ∈ sock, single r
  stopped : s.stopped = false

theorem fromRemotes_clean (ok : Bytes → Bytes → Bool) (quota : Nat) : ∀ (rs : Remotes) (rx),
    (∀ p ∈ rs, ∀ sock, p.2 = some sock → ∀ r ∈ sock, single r) →
    (fromRemotes ok quota rx rs).2.2 = false ∧
    ∀ p ∈ (fromRemotes ok quota rx rs).2.1, ∀ sock, p.2 = some sock → ∀ r ∈ sock, single r := by
  intro rs
  induction rs with
  | nil => intro rx _; exact ⟨rfl, by intro p hp; simp [fromRemotes] at hp⟩
  | cons p rest ih =>
    intro rx h
    have hrest : ∀ p ∈ rest, ∀ sock, p.2 = some sock → ∀ r ∈ sock, single r :=
      fun p hp => h p (List.mem_cons_of_mem _ hp)
    obtain ⟨ident, so⟩ := p
    cases so with
    | none =>
      obtain ⟨h1, h2⟩ := ih rx hrest
      refine ⟨h1, ?_⟩
      intro p hp
      simp only [fromRemotes, List.mem_cons] at hp
      rcases hp with rfl | hp
      · intro sock hs; cases hs
      · exact h2 p hp
    | some sock =>
      have hs := h (ident, some sock) (List.mem_cons_self ..) sock rfl
      obtain ⟨taken, h1, _, h3, _, _⟩ := fromRemote_takes ok quota ident sock 0 rx hs
      obtain ⟨g1, g2⟩ := ih (fromRemote ok quota ident 0 rx sock).rx hrest
      simp only [fromRemotes, h3, Bool.false_eq_true, if_false]
      refine ⟨g1, ?_⟩
      intro p hp
      simp only [List.mem_cons] at hp
      rcases hp with rfl | hp
      · intro sock' hs' r hr
        cases hs'
        exact hs r (by rw [h1]; exact List.mem_append_right _ hr)
      · exact g2 p hp

theorem turn_clean (ok : Bytes → Bytes → Bool) (q : Quota) (sq : Nat) {s : Stack} (h : Clean s) :
    Clean (s.turn ok q sq) := by
  obtain ⟨taken, ht, _⟩ := listen_takes ok q s.listener 0 0 s.rx h.listener
  obtain ⟨g1, g2⟩ := fromRemotes_clean ok sq s.remotes (listen ok q 0 0 s.rx s.listener).rx h.remotes
  unfold Stack.turn
  simp only [ht.raised, Bool.false_eq_true, if_false]
  exact ⟨fun r hr => h.listener r (by rw [ht.split]; exact List.mem_append_right _ hr), g2, g1⟩

/-- A stack for clients: no remotes. -/
structure ClientOk (s : Stack) : Prop where
  listener : ∀ r ∈ s.listener, routed r
  remotes : s.remotes = []
  stopped : s.stopped = false

theorem turn_client (ok : Bytes → Bytes → Bool) (q : Quota) (sq : Nat) {s : Stack} (h : ClientOk s) :
    s.turn ok q sq = { listener := (listen ok q 0 0 s.rx s.listener).rest,
                       rx := (listen ok q 0 0 s.rx s.listener).rx } := by
  obtain ⟨taken, ht, _⟩ := listen_takes ok q s.listener 0 0 s.rx h.listener
  unfold Stack.turn
  simp [ht.raised, h.remotes, fromRemotes]

theorem turn_clientOk (ok : Bytes → Bytes → Bool) (q : Quota) (sq : Nat) {s : Stack} (h : ClientOk s) :
    ClientOk (s.turn ok q sq) := by
  obtain ⟨taken, ht, _⟩ := listen_takes ok q s.listener 0 0 s.rx h.listener
  rw [turn_client ok q sq h]
  exact ⟨fun r hr => h.listener r (by rw [ht.split]; exact List.mem_append_right _ hr), rfl, rfl⟩

theorem prod_client_cases (cfg : Cfg) (s : Node) (w : Nat) :
    (s.prod cfg w).client = s.client ∨
    (s.prod cfg w).client = s.client.turn cfg.okClient (s.ctl.update w).client cfg.senderQuota := by
  unfold Node.prod
  split
  · exact Or.inl rfl
  · simp only
    split
    · exact Or.inl rfl
    · exact Or.inr rfl

theorem update_node (c : Control) (w : Nat) : (c.update w).node = c.node := by
  cases c <;> rfl

theorem prod_node (cfg : Cfg) (s : Node) (w : Nat) (h : s.client.stopped = false) :
    (s.prod cfg w).node
      = if s.node.stopped then s.node else s.node.turn cfg.okNode s.ctl.node cfg.senderQuota := by
  unfold Node.prod
  simp only [h, Bool.false_eq_true, or_false, update_node]
  split
  · rfl
  · split <;> rfl

theorem prod_ctl_node (cfg : Cfg) (s : Node) (w : Nat) : (s.prod cfg w).ctl.node = s.ctl.node := by
  unfold Node.prod
  split
  · rfl
  · simp only
    split
    · exact update_node _ _
    · exact update_node _ _

end Verif.Intake
