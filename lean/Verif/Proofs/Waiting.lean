import Verif.Spec.Waiting
import Verif.Proofs.Count
/-!
# Proofs: PRE-PREPAREs that wait
-/
namespace Verif.Waiting

/-! ## The lowest and the highest key -/

theorem lowest_none {α : Type} {d : Dict Key α} (h : lowest d = none) : d = [] := by
  cases d with
  | nil => rfl
  | cons e d =>
    exfalso
    simp only [lowest] at h
    cases hl : lowest d with
    | none => simp [hl] at h
    | some e' => simp only [hl] at h; split at h <;> exact absurd h (by simp)

theorem keyLt_iff (a b : Key) : keyLt a b = true ↔ a.1 < b.1 ∨ (a.1 = b.1 ∧ a.2 < b.2) := by
  simp [keyLt]

theorem lowest_some {α : Type} {d : Dict Key α} : ∀ {e : Key × α}, lowest d = some e →
    e ∈ d ∧ ∀ e' ∈ d, keyLt e'.1 e.1 = false := by
  induction d with
  | nil => intro e h; simp [lowest] at h
  | cons a d ih =>
    intro e h
    simp only [lowest] at h
    cases hl : lowest d with
    | none =>
      simp only [hl, Option.some.injEq] at h
      subst h
      have := lowest_none hl
      subst this
      refine ⟨by simp, ?_⟩
      intro e' he'
      simp only [List.mem_singleton] at he'
      subst he'
      apply Bool.eq_false_iff.2
      rw [Ne, keyLt_iff]; omega
    | some b =>
      simp only [hl] at h
      obtain ⟨hb, hmin⟩ := ih hl
      by_cases c : keyLt b.1 a.1 = true
      · rw [if_pos c] at h
        simp only [Option.some.injEq] at h
        subst h
        refine ⟨List.mem_cons_of_mem _ hb, ?_⟩
        intro e' he'
        rcases List.mem_cons.1 he' with rfl | he'
        · apply Bool.eq_false_iff.2
          rw [Ne, keyLt_iff]
          rw [keyLt_iff] at c
          omega
        · exact hmin e' he'
      · rw [if_neg c] at h
        simp only [Option.some.injEq] at h
        subst h
        refine ⟨by simp, ?_⟩
        intro e' he'
        rcases List.mem_cons.1 he' with rfl | he'
        · apply Bool.eq_false_iff.2
          rw [Ne, keyLt_iff]; omega
        · have h1 := hmin e' he'
          have h1 := Bool.eq_false_iff.1 h1
          apply Bool.eq_false_iff.2
          rw [Ne, keyLt_iff] at *
          omega

theorem highest_none {α : Type} {d : Dict Key α} (h : highest d = none) : d = [] := by
  cases d with
  | nil => rfl
  | cons e d =>
    exfalso
    simp only [highest] at h
    cases hl : highest d with
    | none => simp [hl] at h
    | some e' => simp only [hl] at h; split at h <;> exact absurd h (by simp)

theorem highest_some {α : Type} {d : Dict Key α} : ∀ {k : Key}, highest d = some k →
    k ∈ d.keys ∧ ∀ k' ∈ d.keys, keyLt k k' = false := by
  induction d with
  | nil => intro e h; simp [highest] at h
  | cons a d ih =>
    intro e h
    simp only [highest] at h
    simp only [Dict.keys, List.map_cons, List.mem_cons]
    cases hl : highest d with
    | none =>
      simp only [hl, Option.some.injEq] at h
      subst h
      have := highest_none hl
      subst this
      refine ⟨Or.inl rfl, ?_⟩
      intro e' he'
      rcases he' with rfl | he'
      · apply Bool.eq_false_iff.2
        rw [Ne, keyLt_iff]; omega
      · simp at he'
    | some b =>
      simp only [hl] at h
      obtain ⟨hb, hmin⟩ := ih hl
      by_cases c : keyLt a.1 b = true
      · rw [if_pos c] at h
        simp only [Option.some.injEq] at h
        subst h
        refine ⟨Or.inr hb, ?_⟩
        intro e' he'
        rcases he' with rfl | he'
        · apply Bool.eq_false_iff.2
          rw [Ne, keyLt_iff]
          rw [keyLt_iff] at c
          omega
        · exact hmin e' he'
      · rw [if_neg c] at h
        simp only [Option.some.injEq] at h
        subst h
        refine ⟨Or.inl rfl, ?_⟩
        intro e' he'
        rcases he' with rfl | he'
        · apply Bool.eq_false_iff.2
          rw [Ne, keyLt_iff]; omega
        · have h1 := hmin e' he'
          have h1 := Bool.eq_false_iff.1 h1
          apply Bool.eq_false_iff.2
          rw [Ne, keyLt_iff] at *
          omega

/-- A key greater than all others is the highest. -/
theorem highest_eq {α : Type} {d : Dict Key α} {k : Key} (hk : k ∈ d.keys)
    (h : ∀ k' ∈ d.keys, k' ≠ k → keyLt k' k = true) : highest d = some k := by
  cases hl : highest d with
  | none => rw [highest_none hl] at hk; simp [Dict.keys] at hk
  | some k' =>
    obtain ⟨hm, hmax⟩ := highest_some hl
    by_cases e : k' = k
    · rw [e]
    · have h1 := h k' hm e
      have h2 := hmax k hk
      rw [h1] at h2
      exact absurd h2 (by simp)

theorem notAfter_iff (a b : Key) : notAfter a b = true ↔ a.2 ≤ b.2 := by
  simp only [notAfter]; exact decide_eq_true_iff

theorem isNext_iff (s : State) (k : Key) : isNext s k = true ↔ k.2 = 1 ∨ k.2 = (lastPp s).2 + 1 := by
  simp only [isNext, Bool.or_eq_true]
  rw [decide_eq_true_iff, decide_eq_true_iff]

/-! ## What a received PRE-PREPARE does to the queues -/

/-- Received and put nowhere, accepted, put in the first queue, or in the second. -/
theorem receive_cases (s : State) (env : Env) (p : PP) (frm : Nat) :
    receive s env p frm = s ∨
    (receive s env p frm = accept s p ∧ p.view = s.viewNo ∧ p.seq ≠ 0 ∧
      (p.seq ≤ s.lastOrdered.2 ∨ (s.lastOrdered.2 < p.seq ∧ isNext s p.key = true ∧ (lastPp s).2 ≤ p.seq ∧
        s.prePrepares.has p.key = false ∧ someUnknown s p = false))) ∨
    (receive s env p frm = { s with pendFin := s.pendFin ++ [{ pp := p, frm := frm, missing := notFinalised s p }] } ∧
      p.view = s.viewNo ∧ p.seq ≠ 0 ∧ notFinalised s p ≠ [] ∧ someUnknown s p = true ∧ s.lastOrdered.2 < p.seq) ∨
    (receive s env p frm = { s with pendPrev := s.pendPrev.set p.key (p, frm) } ∧
      p.view = s.viewNo ∧ p.seq ≠ 0 ∧ isNext s p.key = false ∧ s.lastOrdered.2 < p.seq) := by
  unfold receive
  by_cases h1 : (! (env.valid p frm && inPlace s p)) = true
  · rw [if_pos h1]; exact Or.inl rfl
  rw [if_neg h1]
  have hin : inPlace s p = true := by
    cases hh : inPlace s p
    · simp [hh] at h1
    · rfl
  have hv : p.view = s.viewNo ∧ p.seq ≠ 0 := by
    simp only [inPlace, Bool.and_eq_true, decide_eq_true_eq] at hin
    exact ⟨hin.1.1.2, hin.1.1.1⟩
  by_cases h2 : notAfter p.key s.lastOrdered = true
  · rw [if_pos h2]
    refine Or.inr (Or.inl ⟨rfl, hv.1, hv.2, Or.inl ?_⟩)
    exact (notAfter_iff _ _).1 h2
  rw [if_neg h2]
  have hlo : s.lastOrdered.2 < p.seq := by
    rw [notAfter_iff] at h2
    simp only [PP.key] at h2
    omega
  by_cases h3 : (! env.genuine p frm) = true
  · rw [if_pos h3]; exact Or.inl rfl
  rw [if_neg h3]
  by_cases h4 : s.prePrepares.has p.key = true
  · rw [if_pos h4]; exact Or.inl rfl
  rw [if_neg h4]
  by_cases h5 : (! env.timely p frm) = true
  · rw [if_pos h5]; exact Or.inl rfl
  rw [if_neg h5]
  by_cases h6 : p.seq < (lastPp s).2
  · rw [if_pos h6]; exact Or.inl rfl
  rw [if_neg h6]
  by_cases h7 : someUnknown s p = true
  · rw [if_pos h7]
    by_cases h8 : env.recorded p frm = true
    · rw [if_pos h8]; exact Or.inl rfl
    · rw [if_neg h8]
      have hne : notFinalised s p ≠ [] := by
        simp only [someUnknown, List.any_eq_true] at h7
        obtain ⟨r, hr, hu⟩ := h7
        intro e
        have : r ∈ notFinalised s p := by
          simp only [notFinalised, List.mem_filter]
          refine ⟨hr, ?_⟩
          simp only [Bool.not_eq_true', Dict.has_false_iff] at hu
          simp [isFinalised, hu]
        rw [e] at this
        exact absurd this (by simp)
      refine Or.inr (Or.inr (Or.inl ⟨?_, hv.1, hv.2, hne, h7, hlo⟩))
      simp [enqueue, hne]
  rw [if_neg h7]
  by_cases h8 : (! isNext s p.key) = true
  · rw [if_pos h8]
    refine Or.inr (Or.inr (Or.inr ⟨by simp [enqueue], hv.1, hv.2, by simpa using h8, hlo⟩))
  rw [if_neg h8]
  by_cases h9 : env.applies p frm = true
  · rw [if_pos h9]
    refine Or.inr (Or.inl ⟨rfl, hv.1, hv.2, Or.inr ⟨hlo, by simpa using h8, by omega, by simpa using h4, by simpa using h7⟩⟩)
  · rw [if_neg h9]; exact Or.inl rfl

/-- A PRE-PREPARE that can be taken from the second queue is not put there again. -/
theorem receive_prev (s : State) (env : Env) (p : PP) (frm : Nat) (h : canDequeue s p.key = true) :
    (receive s env p frm).pendPrev = s.pendPrev := by
  rcases receive_cases s env p frm with e | ⟨e, _⟩ | ⟨e, _⟩ | ⟨e, _, _, hn, hlo⟩
  · rw [e]
  · rw [e]; rfl
  · rw [e]
  · exfalso
    simp only [canDequeue, hn, Bool.false_or, notAfter_iff] at h
    simp only [PP.key] at h
    omega

/-! ## The invariant -/

/-- What holds of the queues of a replica at all times. -/
structure Inv (s : State) : Prop where
  up : s.failed = false
  fin : ∀ e ∈ s.pendFin, e.pp.view = s.viewNo ∧ e.pp.seq ≠ 0 ∧ ∀ r ∈ e.missing, r ∈ e.pp.reqs
  prev : ∀ e ∈ s.pendPrev, e.1 = e.2.1.key ∧ e.2.1.view = s.viewNo ∧ e.2.1.seq ≠ 0
  nodup : s.pendPrev.keys.Nodup
  pps : ∀ k ∈ s.prePrepares.keys, k.1 ≤ s.viewNo

theorem mem_keys_set {κ α : Type} [DecidableEq κ] {d : Dict κ α} {k j : κ} {v : α} (h : j ∈ (d.set k v).keys) :
    j = k ∨ j ∈ d.keys := by
  induction d with
  | nil => simp [Dict.set, Dict.keys] at h; exact Or.inl h
  | cons e d ih =>
    simp only [Dict.set] at h
    split at h
    · right; simpa [Dict.keys] using h
    · simp only [Dict.keys, List.map_cons, List.mem_cons] at h ⊢
      rcases h with h | h
      · exact Or.inr (Or.inl h)
      · rcases ih h with h | h
        · exact Or.inl h
        · exact Or.inr (Or.inr h)

theorem mem_set_or {κ α : Type} [DecidableEq κ] {d : Dict κ α} {k : κ} {v : α} {e : κ × α} (h : e ∈ d.set k v) :
    e = (k, v) ∨ e ∈ d := by
  induction d with
  | nil => simp [Dict.set] at h; exact Or.inl h
  | cons a d ih =>
    simp only [Dict.set] at h
    split at h
    · rename_i hk
      rcases List.mem_cons.1 h with h | h
      · left; rw [h, hk]
      · exact Or.inr (List.mem_cons_of_mem _ h)
    · rcases List.mem_cons.1 h with h | h
      · right; rw [h]; exact List.mem_cons_self ..
      · rcases ih h with h | h
        · exact Or.inl h
        · exact Or.inr (List.mem_cons_of_mem _ h)

theorem Inv.receive {s : State} (h : Inv s) (env : Env) (p : PP) (frm : Nat) : Inv (receive s env p frm) := by
  rcases receive_cases s env p frm with e | ⟨e, hv, hs, _⟩ | ⟨e, hv, hs, _⟩ | ⟨e, hv, hs, _⟩
  · rw [e]; exact h
  · rw [e]
    refine ⟨h.up, h.fin, h.prev, h.nodup, ?_⟩
    intro k hk
    rcases mem_keys_set hk with rfl | hk
    · exact Nat.le_of_eq hv
    · exact h.pps k hk
  · rw [e]
    refine ⟨h.up, ?_, h.prev, h.nodup, h.pps⟩
    intro x hx
    rcases List.mem_append.1 hx with hx | hx
    · exact h.fin x hx
    · simp only [List.mem_singleton] at hx
      subst hx
      exact ⟨hv, hs, fun r hr => (List.mem_filter.1 hr).1⟩
  · rw [e]
    refine ⟨h.up, h.fin, ?_, Dict.nodup_keys_set h.nodup _ _, h.pps⟩
    intro x hx
    rcases mem_set_or hx with rfl | hx
    · exact ⟨rfl, hv, hs⟩
    · exact h.prev x hx

/-- Several items put in a dict by their keys. -/
def putAll (l : List Item) (d : Dict Key (PP × Nat)) : Dict Key (PP × Nat) :=
  l.foldl (fun d e => d.set e.pp.key (e.pp, e.frm)) d

theorem putAll_nodup (l : List Item) : ∀ (d : Dict Key (PP × Nat)), d.keys.Nodup → (putAll l d).keys.Nodup := by
  induction l with
  | nil => intro d h; exact h
  | cons e l ih => intro d h; exact ih _ (Dict.nodup_keys_set h _ _)

theorem putAll_mem (l : List Item) : ∀ (d : Dict Key (PP × Nat)) (x : Key × (PP × Nat)), x ∈ putAll l d →
    x ∈ d ∨ ∃ e ∈ l, x = (e.pp.key, (e.pp, e.frm)) := by
  induction l with
  | nil => intro d x h; exact Or.inl h
  | cons e l ih =>
    intro d x h
    rcases ih _ x h with h | ⟨e', he', hx⟩
    · rcases mem_set_or h with h | h
      · exact Or.inr ⟨e, by simp, h⟩
      · exact Or.inl h
    · exact Or.inr ⟨e', List.mem_cons_of_mem _ he', hx⟩

/-- If all that is put with a key is the same, that is what is there. -/
theorem putAll_get (l : List Item) (k : Key) (v : PP × Nat) (hl : ∀ e ∈ l, e.pp.key = k → (e.pp, e.frm) = v) :
    ∀ (d : Dict Key (PP × Nat)), d.get? k = some v ∨ (∃ e ∈ l, e.pp.key = k) → (putAll l d).get? k = some v := by
  induction l with
  | nil =>
    intro d h
    rcases h with h | ⟨e, he, _⟩
    · exact h
    · simp at he
  | cons e l ih =>
    intro d h
    apply ih (fun e' he' => hl e' (List.mem_cons_of_mem _ he'))
    rw [Dict.get?_set]
    by_cases c : e.pp.key = k
    · left; rw [if_pos c, hl e (by simp) c]
    · rw [if_neg c]
      rcases h with h | ⟨e', he', hk⟩
      · exact Or.inl h
      · rcases List.mem_cons.1 he' with rfl | he'
        · exact absurd hk c
        · exact Or.inr ⟨e', he', hk⟩

/-- An item without the requests that are finalised. -/
def trim (s : State) (e : Item) : Item := { e with missing := e.missing.filter (fun r => ! isFinalised s r) }

theorem ready_eq (s : State) : ready s =
    { s with pendFin := (s.pendFin.map (trim s)).filter (fun e => decide (e.missing ≠ []))
             pendPrev := putAll ((s.pendFin.map (trim s)).filter (fun e => decide (e.missing = []))).reverse s.pendPrev } := rfl

theorem Inv.ready {s : State} (h : Inv s) : Inv (ready s) := by
  rw [ready_eq]
  have ht : ∀ e ∈ s.pendFin.map (trim s), e.pp.view = s.viewNo ∧ e.pp.seq ≠ 0 ∧ ∀ r ∈ e.missing, r ∈ e.pp.reqs := by
    intro e he
    obtain ⟨x, hx, rfl⟩ := List.mem_map.1 he
    have := h.fin x hx
    exact ⟨this.1, this.2.1, fun r hr => this.2.2 r (List.mem_filter.1 hr).1⟩
  refine ⟨h.up, ?_, ?_, putAll_nodup _ _ h.nodup, h.pps⟩
  · intro e he
    exact ht e (List.mem_filter.1 he).1
  · intro x hx
    rcases putAll_mem _ _ x hx with hx | ⟨e, he, rfl⟩
    · exact h.prev x hx
    · have := ht e (List.mem_filter.1 (List.mem_reverse.1 he)).1
      exact ⟨rfl, this.1, this.2.1⟩

/-- One round of the loop, in a state that meets the invariant: nothing is thrown away and nothing raised. -/
theorem loop_succ {s : State} (h : Inv s) (env : Env) (n : Nat) : loop env (n + 1) s =
    match lowest s.pendPrev with
    | none => s
    | some (k, p, frm) =>
      if canDequeue s k = true then
        loop env n (receive { s with pendPrev := s.pendPrev.erase k, given := s.given ++ [(p, frm)] } env p frm)
      else s := by
  rw [loop]
  cases hl : lowest s.pendPrev with
  | none => rfl
  | some e =>
    obtain ⟨k, p, frm⟩ := e
    obtain ⟨hm, _⟩ := lowest_some hl
    obtain ⟨_, hv, _⟩ := h.prev _ hm
    replace hv : p.view = s.viewNo := hv
    dsimp only
    by_cases c : canDequeue s k = true
    · rw [if_pos c, if_neg (by simp [c])]
      have h1 : ¬ s.viewNo < p.view := by omega
      have h2 : (! canBeInView { s with pendPrev := s.pendPrev.erase k } p.key) = false := by
        simp [canBeInView, PP.key, hv]
      rw [if_neg h1, if_neg (by rw [h2]; simp)]
    · rw [if_neg c, if_pos (by simp [c])]

/-- The state in which a PRE-PREPARE from the second queue is given again. -/
def popped (s : State) (k : Key) (p : PP) (frm : Nat) : State :=
  { s with pendPrev := s.pendPrev.erase k, given := s.given ++ [(p, frm)] }

theorem Inv.popped {s : State} (h : Inv s) (k : Key) (p : PP) (frm : Nat) : Inv (popped s k p frm) :=
  ⟨h.up, h.fin, fun e he => h.prev e (List.mem_filter.1 he).1, Dict.nodup_keys_erase h.nodup _, h.pps⟩

/-- Induction on the rounds of the loop. -/
theorem loop_ind (P : Nat → State → State → Prop) (env : Env)
    (zero : ∀ s, Inv s → P 0 s s)
    (stop : ∀ n s, Inv s → (s.pendPrev = [] ∨ ∃ k p frm, lowest s.pendPrev = some (k, p, frm) ∧ canDequeue s k = false) → P (n + 1) s s)
    (next : ∀ n s k p frm s', Inv s → lowest s.pendPrev = some (k, p, frm) → canDequeue s k = true → p.key = k →
      P n (receive (popped s k p frm) env p frm) s' → P (n + 1) s s') :
    ∀ n s, Inv s → P n s (loop env n s) := by
  intro n
  induction n with
  | zero => intro s h; exact zero s h
  | succ n ih =>
    intro s h
    rw [loop_succ h]
    cases hl : lowest s.pendPrev with
    | none => exact stop n s h (Or.inl (lowest_none hl))
    | some e =>
      obtain ⟨k, p, frm⟩ := e
      dsimp only
      by_cases c : canDequeue s k = true
      · rw [if_pos c]
        have hk := (h.prev _ (lowest_some hl).1).1
        exact next n s k p frm _ h hl c hk.symm (ih _ ((h.popped k p frm).receive env p frm))
      · rw [if_neg c]
        exact stop n s h (Or.inr ⟨k, p, frm, hl, by simpa using c⟩)

theorem Inv.loop {s : State} (h : Inv s) (env : Env) (n : Nat) : Inv (loop env n s) := by
  refine loop_ind (fun _ _ s' => Inv s') env (fun _ h => h) (fun _ _ h _ => h) ?_ n s h
  intro n s k p frm s' _ _ _ _ h'
  exact h'

theorem Inv.dequeue {s : State} (h : Inv s) (env : Env) : Inv (dequeue s env) := h.ready.loop env _

theorem Inv.step {s : State} (h : Inv s) (e : Ev) : Inv (step s e) := by
  cases e with
  | recv p frm env => simp only [Waiting.step, h.up]; exact h.receive env p frm
  | service env => simp only [Waiting.step, h.up]; exact h.dequeue env
  | learn r => simp only [Waiting.step]; split <;> exact ⟨h.up, h.fin, h.prev, h.nodup, h.pps⟩
  | finalise r => simp only [Waiting.step]; split <;> exact ⟨h.up, h.fin, h.prev, h.nodup, h.pps⟩
  | free r => exact ⟨h.up, h.fin, h.prev, h.nodup, h.pps⟩
  | ordered k => exact ⟨h.up, h.fin, h.prev, h.nodup, h.pps⟩
  | gc n =>
    refine ⟨h.up, h.fin, h.prev, h.nodup, ?_⟩
    intro k hk
    obtain ⟨x, hx, rfl⟩ := List.mem_map.1 hk
    exact h.pps _ (List.mem_map.2 ⟨x, (List.mem_filter.1 hx).1, rfl⟩)
  | viewChange v =>
    refine ⟨h.up, ?_, ?_, ?_, ?_⟩ <;> simp [Waiting.step, clearAll, Dict.keys]
  | newView c => exact ⟨h.up, h.fin, h.prev, h.nodup, h.pps⟩
  | caughtUp v k =>
    have key : ∀ t : State, t.failed = false → t.pendFin = s.pendFin → t.pendPrev = s.pendPrev →
        t.viewNo = max s.viewNo v → (∀ k ∈ t.prePrepares.keys, k ∈ s.prePrepares.keys) → Inv (clearPrevView t) := by
      intro t h1 h2 h3 h4 h5
      refine ⟨h1, ?_, ?_, ?_, ?_⟩
      · intro e he
        obtain ⟨he, hv⟩ := List.mem_filter.1 he
        rw [h2] at he
        have := h.fin e he
        simp only [Bool.not_eq_true', decide_eq_false_iff_not] at hv
        refine ⟨?_, this.2⟩
        show e.pp.view = t.viewNo
        omega
      · intro e he
        obtain ⟨he, hv⟩ := List.mem_filter.1 he
        rw [h3] at he
        have := h.prev e he
        simp only [Bool.not_eq_true', decide_eq_false_iff_not] at hv
        refine ⟨this.1, ?_, this.2.2⟩
        show e.2.1.view = t.viewNo
        have hk : e.1.1 = e.2.1.view := by rw [this.1]; rfl
        omega
      · exact Dict.nodup_keys_filter (h3 ▸ h.nodup) _
      · intro k hk
        have := h.pps k (h5 k hk)
        show k.1 ≤ t.viewNo
        omega
    simp only [Waiting.step]
    split
    · refine key _ h.up rfl rfl rfl ?_
      intro k hk
      obtain ⟨x, hx, rfl⟩ := List.mem_map.1 hk
      exact List.mem_map.2 ⟨x, (List.mem_filter.1 hx).1, rfl⟩
    · exact key _ h.up rfl rfl rfl (fun _ hk => hk)

theorem inv_init : Inv init := by
  refine ⟨rfl, ?_, ?_, ?_, ?_⟩ <;> simp [init, Dict.keys]

theorem Inv.run {s : State} (h : Inv s) (es : List Ev) : Inv (run s es) := by
  induction es generalizing s with
  | nil => exact h
  | cons e es ih => exact ih (h.step e)

/-! ## What the loop leaves alone -/

theorem receive_given (s : State) (env : Env) (p : PP) (frm : Nat) : (receive s env p frm).given = s.given := by
  rcases receive_cases s env p frm with e | ⟨e, _⟩ | ⟨e, _⟩ | ⟨e, _⟩ <;> rw [e] <;> rfl

theorem receive_fix (s : State) (env : Env) (p : PP) (frm : Nat) :
    (receive s env p frm).lastOrdered = s.lastOrdered ∧ (receive s env p frm).viewNo = s.viewNo ∧
    (receive s env p frm).reqs = s.reqs ∧ (receive s env p frm).prevCert = s.prevCert := by
  rcases receive_cases s env p frm with e | ⟨e, _⟩ | ⟨e, _⟩ | ⟨e, _⟩ <;> rw [e] <;> exact ⟨rfl, rfl, rfl, rfl⟩

theorem loop_given {s : State} (h : Inv s) (env : Env) (n : Nat) : ∃ l, (loop env n s).given = s.given ++ l := by
  refine loop_ind (fun _ s s' => ∃ l, s'.given = s.given ++ l) env (fun _ _ => ⟨[], by simp⟩) (fun _ _ _ _ => ⟨[], by simp⟩) ?_ n s h
  intro n s k p frm s' _ _ _ _ ⟨l, hl⟩
  rw [receive_given] at hl
  exact ⟨(p, frm) :: l, by rw [hl]; simp [popped]⟩

theorem receive_fin (s : State) (env : Env) (p : PP) (frm : Nat) (e : Item) (he : e ∈ s.pendFin) :
    e ∈ (receive s env p frm).pendFin := by
  rcases receive_cases s env p frm with h | ⟨h, _⟩ | ⟨h, _⟩ | ⟨h, _⟩ <;> rw [h]
  · exact he
  · exact he
  · exact List.mem_append_left _ he
  · exact he

theorem loop_fin {s : State} (h : Inv s) (env : Env) (n : Nat) (e : Item) (he : e ∈ s.pendFin) :
    e ∈ (loop env n s).pendFin := by
  refine loop_ind (fun _ s s' => e ∈ s.pendFin → e ∈ s'.pendFin) env (fun _ _ h => h) (fun _ _ _ _ h => h) ?_ n s h he
  intro n s k p frm s' _ _ _ _ ih h
  exact ih (receive_fin _ env p frm e h)

/-- An accepted PRE-PREPARE that is not ordered is not replaced. -/
theorem receive_keeps (s : State) (env : Env) (p : PP) (frm : Nat) (k : Key) (q : PP) (hq : s.prePrepares.get? k = some q)
    (ho : s.lastOrdered.2 < k.2) : (receive s env p frm).prePrepares.get? k = some q := by
  rcases receive_cases s env p frm with e | ⟨e, _, _, hc⟩ | ⟨e, _⟩ | ⟨e, _⟩ <;> rw [e]
  · exact hq
  · show Dict.get? (Dict.set _ _ _) k = _
    rw [Dict.get?_set, if_neg]
    · exact hq
    · rintro rfl
      simp only [PP.key] at ho
      rcases hc with hc | ⟨_, _, _, hc, _⟩
      · omega
      · rw [Dict.has_false_iff] at hc
        rw [hc] at hq
        exact absurd hq (by simp)
  · exact hq
  · exact hq

theorem loop_keeps {s : State} (h : Inv s) (env : Env) (n : Nat) (k : Key) (q : PP) (hq : s.prePrepares.get? k = some q)
    (ho : s.lastOrdered.2 < k.2) : (loop env n s).prePrepares.get? k = some q := by
  refine loop_ind (fun _ s s' => s.prePrepares.get? k = some q → s.lastOrdered.2 < k.2 → s'.prePrepares.get? k = some q)
    env (fun _ _ h _ => h) (fun _ _ _ _ h _ => h) ?_ n s h hq ho
  intro n s k' p frm s' _ _ _ _ ih h h'
  refine ih (receive_keeps _ env p frm k q h h') ?_
  rw [(receive_fix _ env p frm).1]
  exact h'

/-- The rounds suffice: the loop ends when nothing more can be taken. -/
theorem loop_end {s : State} (h : Inv s) (env : Env) (n : Nat) (hn : s.pendPrev.length ≤ n) :
    (loop env n s).pendPrev = [] ∨ ∃ k p frm, lowest (loop env n s).pendPrev = some (k, p, frm) ∧ canDequeue (loop env n s) k = false := by
  refine loop_ind (fun n s s' => s.pendPrev.length ≤ n → (s'.pendPrev = [] ∨
    ∃ k p frm, lowest s'.pendPrev = some (k, p, frm) ∧ canDequeue s' k = false)) env ?_ ?_ ?_ n s h hn
  · intro s _ hl
    left
    exact List.length_eq_zero_iff.1 (by omega)
  · intro n s _ hs _
    exact hs
  · intro n s k p frm s' _ hl hc hk ih hlen
    apply ih
    rw [receive_prev]
    · show (s.pendPrev.erase k).length ≤ n
      have hm := (lowest_some hl).1
      have : (s.pendPrev.erase k).length < s.pendPrev.length := by
        unfold Dict.erase
        apply List.length_filter_lt_length_iff_exists.2
        exact ⟨_, hm, by simp⟩
      omega
    · rw [hk]; exact hc

/-! ## The last PRE-PREPARE -/

theorem lastOrdered_le (s : State) : s.lastOrdered.2 ≤ (lastPp s).2 := by
  unfold lastPp
  split
  · omega
  · split <;> omega

theorem highest_le (s : State) (k : Key) (h : highest s.prePrepares = some k) : k.2 ≤ (lastPp s).2 := by
  unfold lastPp
  rw [h]
  dsimp only
  split <;> omega

/-- After a new PRE-PREPARE is accepted it is the last. -/
theorem lastPp_accept {s : State} (h : Inv s) (p : PP) (hv : p.view = s.viewNo) (hs : (lastPp s).2 < p.seq) :
    lastPp (accept s p) = p.key := by
  have hh : highest (accept s p).prePrepares = some p.key := by
    apply highest_eq
    · show p.key ∈ Dict.keys (Dict.set _ _ _)
      rw [Dict.mem_keys]
      exact ⟨p, by rw [Dict.get?_set, if_pos rfl]⟩
    · intro k hk hne
      rcases mem_keys_set hk with hk | hk
      · exact absurd hk hne
      · rw [keyLt_iff]
        have h1 := h.pps k hk
        simp only [PP.key]
        by_cases c : k.1 < p.view
        · exact Or.inl c
        · right
          refine ⟨by omega, ?_⟩
          cases hq : highest s.prePrepares with
          | none => rw [highest_none hq] at hk; simp [Dict.keys] at hk
          | some m =>
            obtain ⟨hm, hmax⟩ := highest_some hq
            have h2 := h.pps m hm
            have h3 := hmax k hk
            have h4 := highest_le s m hq
            have h3 := Bool.eq_false_iff.1 h3
            rw [Ne, keyLt_iff] at h3
            omega
  have ho := lastOrdered_le s
  unfold lastPp
  rw [hh]
  dsimp only
  rw [if_pos]
  show s.lastOrdered.2 < p.seq
  omega

end Verif.Waiting
