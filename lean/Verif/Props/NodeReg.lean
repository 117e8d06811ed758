import Verif.Spec.NodeReg
import Verif.Props.Audit
import Verif.Proofs.Count
/-!
# C36, C66: the node registry
-/
namespace Verif.Props
open Verif.NodeReg
open Verif.Spec.NodeReg

/-! ## Sorted dictionaries -/

/-- Keys increase. -/
def Incr (d : Dict Nat (List String)) : Prop := List.Pairwise (fun a b => a.1 < b.1) d

theorem mem_sset {k : Nat} {v : List String} {d : Dict Nat (List String)} {e : Nat × List String}
    (h : e ∈ sset k v d) : e = (k, v) ∨ e ∈ d := by
  induction d with
  | nil => simpa [sset] using h
  | cons x d ih =>
    unfold sset at h
    split at h
    · rcases List.mem_cons.1 h with h | h
      · exact Or.inl h
      · exact Or.inr (List.mem_cons_of_mem _ h)
    · split at h
      · rcases List.mem_cons.1 h with h | h
        · exact Or.inl h
        · exact Or.inr h
      · rcases List.mem_cons.1 h with h | h
        · exact Or.inr (h ▸ List.mem_cons_self)
        · rcases ih h with h | h
          · exact Or.inl h
          · exact Or.inr (List.mem_cons_of_mem _ h)

theorem mem_sset_self (k : Nat) (v : List String) (d : Dict Nat (List String)) : (k, v) ∈ sset k v d := by
  induction d with
  | nil => simp [sset]
  | cons x d ih =>
    unfold sset
    split
    · exact List.mem_cons_self
    · split
      · exact List.mem_cons_self
      · exact List.mem_cons_of_mem _ ih

theorem key_sset {k : Nat} {v : List String} {d : Dict Nat (List String)} {j : Nat}
    (h : ∃ x, (j, x) ∈ d) : ∃ x, (j, x) ∈ sset k v d := by
  induction d with
  | nil => obtain ⟨x, hx⟩ := h; cases hx
  | cons e d ih =>
    obtain ⟨x, hx⟩ := h
    unfold sset
    split
    · next he =>
      rcases List.mem_cons.1 hx with hx | hx
      · exact ⟨v, by rw [← hx] at he; simp only at he; rw [he]; exact List.mem_cons_self⟩
      · exact ⟨x, List.mem_cons_of_mem _ hx⟩
    · split
      · exact ⟨x, List.mem_cons_of_mem _ hx⟩
      · rcases List.mem_cons.1 hx with hx | hx
        · exact ⟨x, hx ▸ List.mem_cons_self⟩
        · obtain ⟨y, hy⟩ := ih ⟨x, hx⟩
          exact ⟨y, List.mem_cons_of_mem _ hy⟩

theorem incr_sset (k : Nat) (v : List String) {d : Dict Nat (List String)} (h : Incr d) : Incr (sset k v d) := by
  induction d with
  | nil => simp [sset, Incr]
  | cons e d ih =>
    obtain ⟨h1, h2⟩ := List.pairwise_cons.1 h
    unfold sset
    split
    · next he => exact List.pairwise_cons.2 ⟨fun x hx => by have := h1 x hx; simp only; omega, h2⟩
    · split
      · next hlt =>
        refine List.pairwise_cons.2 ⟨fun x hx => ?_, h⟩
        rcases List.mem_cons.1 hx with rfl | hx
        · exact hlt
        · have := h1 x hx; simp only; omega
      · next hne hlt =>
        refine List.pairwise_cons.2 ⟨fun x hx => ?_, ih h2⟩
        rcases mem_sset hx with rfl | hx
        · simp only; omega
        · exact h1 x hx

theorem keyIndex_spec {k : Nat} {d : Dict Nat (List String)} {i : Nat} (h : keyIndex k d = some i) :
    ∃ x, d[i]? = some (k, x) := by
  induction d generalizing i with
  | nil => cases h
  | cons e d ih =>
    unfold keyIndex at h
    split at h
    · next he => cases h; exact ⟨e.2, by rw [he]; rfl⟩
    · cases hk : keyIndex k d with
      | none => rw [hk] at h; cases h
      | some j => rw [hk] at h; cases h; simpa using ih hk

theorem mem_gc {c : Nat} {d : Dict Nat (List String)} {e : Nat × List String} (h : e ∈ gc c d) : e ∈ d := by
  unfold gc at h
  split at h
  · exact h
  · exact List.mem_of_mem_drop h

theorem incr_gc {c : Nat} {d : Dict Nat (List String)} (h : Incr d) : Incr (gc c d) := by
  unfold gc
  split
  · exact h
  · exact List.Pairwise.drop h

/-- What is at the committed view or above stays. -/
theorem gc_keeps {c : Nat} {d : Dict Nat (List String)} (hd : Incr d) {e : Nat × List String} (h : e ∈ d)
    (hc : c ≤ e.1) : e ∈ gc c d := by
  unfold gc
  split
  · exact h
  · next i hi =>
    obtain ⟨x, hx⟩ := keyIndex_spec hi
    obtain ⟨j, hj, hje⟩ := List.getElem_of_mem h
    obtain ⟨hil, hix⟩ := List.getElem?_eq_some_iff.1 hx
    have : i ≤ j := by
      apply Classical.byContradiction
      intro hlt
      have := List.pairwise_iff_getElem.1 hd j i hj hil (by omega)
      rw [hje, hix] at this
      simp only at this; omega
    refine List.mem_iff_getElem.2 ⟨j - (i - 1), by simp; omega, ?_⟩
    rw [List.getElem_drop]
    simp only [show i - 1 + (j - (i - 1)) = j by omega, hje]

theorem last_of_max {d : Dict Nat (List String)} (hd : Incr d) {m : Nat} {x : List String} (h : (m, x) ∈ d)
    (hm : ∀ e ∈ d, e.1 ≤ m) : d.getLast? = some (m, x) := by
  have hne : d ≠ [] := List.ne_nil_of_mem h
  obtain ⟨l, e, rfl⟩ : ∃ l e, d = l ++ [e] := ⟨d.dropLast, d.getLast hne, (List.dropLast_concat_getLast hne).symm⟩
  have he := hm e (by simp)
  rcases List.mem_append.1 h with h | h
  · have := (List.pairwise_append.1 hd).2.2 _ h e (by simp)
    simp only at this; omega
  · have : (m, x) = e := by simpa using h
    rw [← this]; simp

/-! ## The invariant -/

theorem registry_snoc (reg : List String) (bs : List Batch) (b : Batch) :
    registry reg (bs ++ [b]) = b.reqs.foldl change (registry reg bs) := by
  simp [registry]

/-- Views do not go down. -/
def Views (bs : List Batch) : Prop := List.Pairwise (fun a b => a.view ≤ b.view) bs

theorem lastView_ge {bs : List Batch} (h : Views bs) {b : Batch} (hb : b ∈ bs) : b.view ≤ lastView bs := by
  have hne : bs ≠ [] := List.ne_nil_of_mem hb
  obtain ⟨l, e, rfl⟩ : ∃ l e, bs = l ++ [e] := ⟨bs.dropLast, bs.getLast hne, (List.dropLast_concat_getLast hne).symm⟩
  simp only [lastView, List.getLast?_append, List.getLast?_singleton, Option.some_or, Option.map_some, Option.getD_some]
  rcases List.mem_append.1 hb with hb | hb
  · exact (List.pairwise_append.1 h).2.2 b hb e (by simp)
  · simp at hb; subst hb; exact Nat.le_refl _

theorem atBeginning_snoc {reg : List String} {bs : List Batch} {b : Batch} {v : Nat} (h : v ≤ b.view) :
    atBeginning reg (bs ++ [b]) v = atBeginning reg bs v := by
  simp [atBeginning, Nat.not_lt.2 h]

theorem atBeginning_all {reg : List String} {bs : List Batch} {v : Nat} (h : ∀ b ∈ bs, b.view < v) :
    atBeginning reg bs v = registry reg bs := by
  unfold atBeginning
  rw [List.filter_eq_self.2 (fun b hb => by simpa using h b hb)]

/-- The handler agrees with the batches. `partly` says that the uncommitted registry may be shared. -/
structure RegInv (reg : List String) (s : State) (l : Live) (partly : Bool) : Prop where
  views : Views l.all
  uncLt : s.unc < s.heap.length
  comLt : s.com < s.heap.length
  queueLt : ∀ e ∈ s.queue, e.1 < s.heap.length
  com : s.committed = registry reg l.done
  unc : s.uncommitted = registry reg l.all
  qlen : s.queue.length = l.pending.length
  queue : ∀ (i : Nat) e b, s.queue[i]? = some e → l.pending[i]? = some b →
    s.val e.1 = registry reg (l.done ++ l.pending.take (i + 1)) ∧ e.2 = b.view
  apart : partly = false → s.unc ≠ s.com ∧ ∀ e ∈ s.queue, s.unc ≠ e.1
  uncView : s.uncView = lastView l.all
  comView : s.comView = lastView l.done
  incrU : Incr s.atUnc
  incrC : Incr s.atCom
  entryU : ∀ e ∈ s.atUnc, e.2 = atBeginning reg l.all e.1 ∧ (e.1 = 0 ∨ ∃ b ∈ l.all, b.view = e.1)
  entryC : ∀ e ∈ s.atCom, e.2 = atBeginning reg l.done e.1 ∧ e.1 ≤ s.comView
  hasU : (∃ x, (s.comView, x) ∈ s.atUnc) ∧ ∀ b ∈ l.pending, ∃ x, (b.view, x) ∈ s.atUnc
  hasC : ∃ x, (s.comView, x) ∈ s.atCom

theorem RegInv.boot (reg : List String) : RegInv reg (boot reg) ⟨[], []⟩ false := by
  refine ⟨List.Pairwise.nil, by simp [NodeReg.boot], by simp [NodeReg.boot], by simp [NodeReg.boot], rfl, rfl, rfl, ?_,
    fun _ => ⟨by simp [NodeReg.boot], by simp [NodeReg.boot]⟩, rfl, rfl, ?_, ?_, ?_, ?_, ?_, ?_⟩
  · intro i e b h; simp [NodeReg.boot] at h
  · simp [Incr, NodeReg.boot]
  · simp [Incr, NodeReg.boot]
  · intro e he; simp [NodeReg.boot] at he; subst he; exact ⟨rfl, Or.inl rfl⟩
  · intro e he; simp [NodeReg.boot] at he; subst he; exact ⟨rfl, Nat.le_refl _⟩
  · exact ⟨⟨reg, by simp [NodeReg.boot]⟩, by simp⟩
  · exact ⟨reg, by simp [NodeReg.boot]⟩

/-- Applying requests writes the new list at one address. -/
theorem applyRequests_eq (s : State) (rs : List Req) (hu : s.unc < s.heap.length) :
    rs.foldl applyRequest s = { s with heap := s.heap.set s.unc (rs.foldl change s.uncommitted) } := by
  induction rs generalizing s with
  | nil =>
    simp only [List.foldl_nil, State.uncommitted, State.val]
    rw [List.getElem?_eq_getElem hu]
    simp
  | cons r rs ih =>
    simp only [List.foldl_cons]
    rw [ih _ (by simpa [applyRequest] using hu)]
    have : (applyRequest s r).uncommitted = change s.uncommitted r := by
      simp only [applyRequest, State.uncommitted, State.val]
      rw [List.getElem?_set_self hu]; rfl
    rw [this]
    simp [applyRequest]

theorem RegInv.apply {reg : List String} {s : State} {l : Live} {p : Bool} (h : RegInv reg s l p) (rs : List Req)
    (view : Nat) (hv : lastView l.all ≤ view)
    (hp : p = true → rs.foldl change (registry reg l.all) = registry reg l.all) :
    RegInv reg (step s (.apply rs view)) (l.step (.apply rs view)) p := by
  -- after the requests
  have hval : ∀ a, a < s.heap.length → a ≠ s.unc ∨ p = true →
      ((s.heap.set s.unc (rs.foldl change s.uncommitted))[a]?.getD []) = s.val a := by
    intro a ha hor
    by_cases hau : a = s.unc
    · subst hau
      have hp := hp (hor.resolve_left (by simp))
      rw [List.getElem?_set_self ha, h.unc, hp, ← h.unc]
      rfl
    · rw [List.getElem?_set_ne (Ne.symm hau)]; rfl
  have hcom : ((s.heap.set s.unc (rs.foldl change s.uncommitted))[s.com]?.getD []) = registry reg l.done := by
    rw [hval s.com h.comLt, ← h.com]
    · rfl
    · cases p with
      | true => exact Or.inr rfl
      | false => exact Or.inl (Ne.symm (h.apart rfl).1)
  have hq : ∀ e ∈ s.queue, ((s.heap.set s.unc (rs.foldl change s.uncommitted))[e.1]?.getD []) = s.val e.1 := by
    intro e he
    refine hval _ (h.queueLt e he) ?_
    cases p with
    | true => exact Or.inr rfl
    | false => exact Or.inl (Ne.symm ((h.apart rfl).2 e he))
  have hunc : ((s.heap.set s.unc (rs.foldl change s.uncommitted))[s.unc]?.getD []) =
      rs.foldl change (registry reg l.all) := by
    rw [List.getElem?_set_self h.uncLt, h.unc]; rfl
  -- the last value of the queue
  have hlast : State.lastApplied { s with heap := s.heap.set s.unc (rs.foldl change s.uncommitted) } =
      registry reg l.all := by
    unfold State.lastApplied State.committed State.val
    simp only
    cases hl : s.queue.getLast? with
    | none =>
      have h1 := List.getLast?_eq_none_iff.1 hl
      have h2 := h.qlen
      rw [h1] at h2
      have : l.pending = [] := List.length_eq_zero_iff.1 h2.symm
      simp only [hcom, Live.all, this, List.append_nil]
    | some e =>
      have hm := List.mem_of_getLast? hl
      rw [List.getLast?_eq_getElem?] at hl
      have hlen : s.queue.length - 1 < l.pending.length := by
        rw [← h.qlen]; exact (List.getElem?_eq_some_iff.1 hl).1
      have := (h.queue _ e _ hl (List.getElem?_eq_getElem hlen)).1
      simp only [hq e hm, this]
      rw [List.take_of_length_le (by have := h.qlen; omega)]
      rfl
  have hall : (l.step (.apply rs view)).all = l.all ++ [⟨rs, view⟩] := by simp [Live.step, Live.all]
  have hviews : Views (l.all ++ [⟨rs, view⟩]) := by
    refine List.pairwise_append.2 ⟨h.views, by simp, ?_⟩
    intro a ha b hb
    have := lastView_ge h.views ha
    simp at hb; subst hb; simp only; omega
  have hlv : lastView (l.all ++ [⟨rs, view⟩]) = view := by simp [lastView]
  unfold step
  simp only
  rw [applyRequests_eq s rs h.uncLt]
  generalize hH : s.heap.set s.unc (rs.foldl change s.uncommitted) = H at *
  have hHl : H.length = s.heap.length := by rw [← hH]; simp
  have hv2 : ∀ a, a < s.heap.length → (H ++ [(H[s.unc]?.getD [])])[a]?.getD [] = H[a]?.getD [] := by
    intro a ha; rw [List.getElem?_append_left (by omega)]
  have hqueue : ∀ (i : Nat) e b, (s.queue ++ [(H.length, view)])[i]? = some e →
      (l.pending ++ [⟨rs, view⟩])[i]? = some b →
      (H ++ [(H[s.unc]?.getD [])])[e.1]?.getD [] =
        registry reg (l.done ++ (l.pending ++ [(⟨rs, view⟩ : Batch)]).take (i + 1)) ∧ e.2 = b.view := by
    intro i e b he hb
    by_cases hi : i < s.queue.length
    · rw [List.getElem?_append_left hi] at he
      rw [List.getElem?_append_left (by rw [← h.qlen]; exact hi)] at hb
      have hm := List.mem_of_getElem? he
      rw [hv2 _ (h.queueLt e hm), hq e hm]
      rw [List.take_append_of_le_length (by rw [← h.qlen]; omega)]
      exact h.queue i e b he hb
    · have hi2 : i = s.queue.length := by
        have := (List.getElem?_eq_some_iff.1 he).1; simp at this; omega
      subst hi2
      have he' : e = (H.length, view) := by simpa using he.symm
      have hb' : b = ⟨rs, view⟩ := by rw [h.qlen] at hb; simpa using hb.symm
      subst he'; subst hb'
      refine ⟨?_, rfl⟩
      rw [List.take_of_length_le (by simp [h.qlen])]
      rw [show l.done ++ (l.pending ++ [⟨rs, view⟩]) = l.all ++ [⟨rs, view⟩] by simp [Live.all], registry_snoc]
      simp [hunc]
  by_cases hgt : view > s.uncView
  · simp only [postBatchApplied, hgt, if_true, hlast]
    simp only [State.uncommitted, State.val]
    have hbefore : atBeginning reg (l.all ++ [⟨rs, view⟩]) view = registry reg l.all := by
      rw [atBeginning_snoc (Nat.le_refl _)]
      refine atBeginning_all (fun b hb => ?_)
      have h1 := lastView_ge h.views hb
      have h2 := h.uncView
      show b.view < view
      omega
    exact
      { views := by rw [hall]; exact hviews
        uncLt := by simp [hHl]; have := h.uncLt; omega
        comLt := by simp [hHl]; have := h.comLt; omega
        queueLt := by
          intro e he
          rcases List.mem_append.1 he with he | he
          · have := h.queueLt e he; simp [hHl]; omega
          · simp at he; subst he; simp
        com := by
          show (H ++ [(H[s.unc]?.getD [])])[s.com]?.getD [] = _
          rw [hv2 _ h.comLt]; exact hcom
        unc := by
          show (H ++ [(H[s.unc]?.getD [])])[s.unc]?.getD [] = _
          rw [hv2 _ h.uncLt, hall, registry_snoc]; exact hunc
        qlen := by simp [Live.step, h.qlen]
        queue := hqueue
        apart := by
          intro hpf
          refine ⟨(h.apart hpf).1, fun e he => ?_⟩
          rcases List.mem_append.1 he with he | he
          · exact (h.apart hpf).2 e he
          · simp at he; subst he; have := h.uncLt; simp only [hHl]; omega
        uncView := by rw [hall, hlv]
        comView := h.comView
        incrU := incr_sset _ _ h.incrU
        incrC := h.incrC
        entryU := by
          intro e he
          rw [hall]
          rcases mem_sset he with rfl | he
          · exact ⟨hbefore.symm, Or.inr ⟨⟨rs, view⟩, by simp, rfl⟩⟩
          · obtain ⟨h1, h2⟩ := h.entryU e he
            have hle : e.1 ≤ view := by
              rcases h2 with h2 | ⟨b, hb, h2⟩
              · omega
              · have := lastView_ge h.views hb; omega
            refine ⟨?_, ?_⟩
            · rw [atBeginning_snoc hle]; exact h1
            · rcases h2 with h2 | ⟨b, hb, h2⟩
              · exact Or.inl h2
              · exact Or.inr ⟨b, by simp [hb], h2⟩
        entryC := h.entryC
        hasU := by
          refine ⟨key_sset h.hasU.1, ?_⟩
          intro b hb
          rcases List.mem_append.1 hb with hb | hb
          · exact key_sset (h.hasU.2 b hb)
          · simp at hb; subst hb; exact ⟨_, mem_sset_self _ _ _⟩
        hasC := h.hasC }
  · simp only [postBatchApplied, hgt, if_false]
    simp only [State.uncommitted, State.val]
    have hve : s.uncView = view := by have := h.uncView; omega
    have hkey : ∃ x, (view, x) ∈ s.atUnc := by
      rw [← hve, h.uncView]
      cases hl : l.pending.getLast? with
      | none =>
        have hn := List.getLast?_eq_none_iff.1 hl
        have : lastView l.all = lastView l.done := by simp [Live.all, hn]
        rw [this, ← h.comView]; exact h.hasU.1
      | some b =>
        have : lastView l.all = b.view := by simp [lastView, Live.all, List.getLast?_append, hl]
        rw [this]; exact h.hasU.2 b (List.mem_of_getLast? hl)
    exact
      { views := by rw [hall]; exact hviews
        uncLt := by simp [hHl]; have := h.uncLt; omega
        comLt := by simp [hHl]; have := h.comLt; omega
        queueLt := by
          intro e he
          rcases List.mem_append.1 he with he | he
          · have := h.queueLt e he; simp [hHl]; omega
          · simp at he; subst he; simp
        com := by
          show (H ++ [(H[s.unc]?.getD [])])[s.com]?.getD [] = _
          rw [hv2 _ h.comLt]; exact hcom
        unc := by
          show (H ++ [(H[s.unc]?.getD [])])[s.unc]?.getD [] = _
          rw [hv2 _ h.uncLt, hall, registry_snoc]; exact hunc
        qlen := by simp [Live.step, h.qlen]
        queue := hqueue
        apart := by
          intro hpf
          refine ⟨(h.apart hpf).1, fun e he => ?_⟩
          rcases List.mem_append.1 he with he | he
          · exact (h.apart hpf).2 e he
          · simp at he; subst he; have := h.uncLt; simp only [hHl]; omega
        uncView := by rw [hall, hlv]; exact hve
        comView := h.comView
        incrU := h.incrU
        incrC := h.incrC
        entryU := by
          intro e he
          rw [hall]
          obtain ⟨h1, h2⟩ := h.entryU e he
          have hle : e.1 ≤ view := by
            rcases h2 with h2 | ⟨b, hb, h2⟩
            · omega
            · have := lastView_ge h.views hb; omega
          refine ⟨?_, ?_⟩
          · rw [atBeginning_snoc hle]; exact h1
          · rcases h2 with h2 | ⟨b, hb, h2⟩
            · exact Or.inl h2
            · exact Or.inr ⟨b, by simp [hb], h2⟩
        entryC := h.entryC
        hasU := by
          refine ⟨h.hasU.1, ?_⟩
          intro b hb
          rcases List.mem_append.1 hb with hb | hb
          · exact h.hasU.2 b hb
          · simp at hb; subst hb; exact hkey
        hasC := h.hasC }

theorem RegInv.reject {reg : List String} {s : State} {l : Live} {p : Bool} (h : RegInv reg s l p)
    (hne : l.pending ≠ []) :
    RegInv reg (step s .reject) (l.step .reject) (decide (1 < l.pending.length)) := by
  obtain ⟨bs, b, hb⟩ : ∃ bs b, l.pending = bs ++ [b] :=
    ⟨l.pending.dropLast, l.pending.getLast hne, (List.dropLast_concat_getLast hne).symm⟩
  have hlen := h.qlen
  have hqne : s.queue ≠ [] := by intro h0; rw [h0, hb] at hlen; simp at hlen
  obtain ⟨q, e, hq⟩ : ∃ q e, s.queue = q ++ [e] :=
    ⟨s.queue.dropLast, s.queue.getLast hqne, (List.dropLast_concat_getLast hqne).symm⟩
  have hql : q.length = bs.length := by rw [hq, hb] at hlen; simpa using hlen
  have hev : e.2 = b.view := by
    refine (h.queue q.length e b (by rw [hq]; simp) (by rw [hb, hql]; simp)).2
  have hL : l.step .reject = ⟨l.done, bs⟩ := by simp [Live.step, hb]
  have hall : l.all = (⟨l.done, bs⟩ : Live).all ++ [b] := by simp [Live.all, hb]
  have hviews : Views (⟨l.done, bs⟩ : Live).all := by
    have := h.views; rw [hall] at this; exact (List.pairwise_append.1 this).1
  have hbv : ∀ c ∈ (⟨l.done, bs⟩ : Live).all, c.view ≤ b.view := by
    intro c hc
    have := h.views; rw [hall] at this
    exact (List.pairwise_append.1 this).2.2 c hc b (by simp)
  have huv : s.uncView = b.view := by rw [h.uncView, hall]; simp [lastView]
  -- queue facts for the rest
  have hqueue : ∀ (H : List (List String)), (∀ a, a < s.heap.length → H[a]?.getD [] = s.val a) →
      ∀ (i : Nat) e c, q[i]? = some e → bs[i]? = some c →
      H[e.1]?.getD [] = registry reg (l.done ++ bs.take (i + 1)) ∧ e.2 = c.view := by
    intro H hH i e c he hc
    have hi := (List.getElem?_eq_some_iff.1 he).1
    have he' : s.queue[i]? = some e := by rw [hq, List.getElem?_append_left hi]; exact he
    have hc' : l.pending[i]? = some c := by rw [hb, List.getElem?_append_left (by omega)]; exact hc
    have := h.queue i e c he' hc'
    rw [hb, List.take_append_of_le_length (by omega)] at this
    rw [hH _ (h.queueLt e (by rw [hq]; simp [List.mem_of_getElem? he]))]
    exact this
  -- the entries, with the view of the rejected batch removed if it has no other batch
  have hentry : ∀ (d : Dict Nat (List String)) (V : Nat), V = lastView (⟨l.done, bs⟩ : Live).all →
      (d = if V < e.2 then s.atUnc.erase e.2 else s.atUnc) →
      (∀ x ∈ d, x.2 = atBeginning reg (⟨l.done, bs⟩ : Live).all x.1 ∧
        (x.1 = 0 ∨ ∃ c ∈ (⟨l.done, bs⟩ : Live).all, c.view = x.1)) ∧ Incr d ∧
      (∃ y, (s.comView, y) ∈ d) ∧ ∀ c ∈ bs, ∃ y, (c.view, y) ∈ d := by
    intro d V hV hd
    have hVle : V ≤ e.2 := by
      rw [hV, hev]
      unfold lastView
      cases hg : ((⟨l.done, bs⟩ : Live).all).getLast? with
      | none => simp
      | some c => exact hbv c (List.mem_of_getLast? hg)
    have hsub : ∀ x ∈ d, x ∈ s.atUnc := by
      intro x hx
      rw [hd] at hx
      split at hx
      · exact (List.mem_filter.1 hx).1
      · exact hx
    have hin : ∀ x ∈ s.atUnc, x.1 ≤ V → x ∈ d := by
      intro x hx hxv
      rw [hd]
      split
      · next hlt => exact List.mem_filter.2 ⟨hx, by simp; omega⟩
      · exact hx
    have hgeV : ∀ c ∈ (⟨l.done, bs⟩ : Live).all, c.view ≤ V := by
      intro c hc; rw [hV]; exact lastView_ge hviews hc
    refine ⟨?_, ?_, ?_, ?_⟩
    · intro x hx
      obtain ⟨h1, h2⟩ := h.entryU x (hsub x hx)
      have hxb : x.1 ≤ b.view := by
        rcases h2 with h2 | ⟨c, hc, h2⟩
        · omega
        · have := lastView_ge h.views hc; rw [← h.uncView, huv] at this; omega
      rw [hall] at h1 h2
      rw [atBeginning_snoc hxb] at h1
      refine ⟨h1, ?_⟩
      rcases h2 with h2 | ⟨c, hc, h2⟩
      · exact Or.inl h2
      · rcases List.mem_append.1 hc with hc | hc
        · exact Or.inr ⟨c, hc, h2⟩
        · simp at hc; subst hc
          -- the rejected batch had this view: then another one has it too, or the entry is gone
          rw [hd] at hx
          split at hx
          · have := (List.mem_filter.1 hx).2
            simp at this
            exact absurd (h2.symm.trans hev.symm) this
          · next hlt =>
            have hVe : V = c.view := by omega
            rw [hV] at hVe
            unfold lastView at hVe
            cases hg : ((⟨l.done, bs⟩ : Live).all).getLast? with
            | none => rw [hg] at hVe; simp at hVe; left; omega
            | some a =>
              rw [hg] at hVe
              simp only [Option.map_some, Option.getD_some] at hVe
              exact Or.inr ⟨a, List.mem_of_getLast? hg, by omega⟩
    · rw [hd]
      split
      · exact List.Pairwise.filter _ h.incrU
      · exact h.incrU
    · obtain ⟨y, hy⟩ := h.hasU.1
      refine ⟨y, hin _ hy ?_⟩
      show s.comView ≤ V
      rw [h.comView]
      unfold lastView
      cases hg : l.done.getLast? with
      | none => simp
      | some c => exact hgeV c (by simp [Live.all, List.mem_of_getLast? hg])
    · intro c hc
      obtain ⟨y, hy⟩ := h.hasU.2 c (by rw [hb]; simp [hc])
      exact ⟨y, hin _ hy (hgeV c (by simp [Live.all, hc]))⟩
  have hpl : decide (1 < l.pending.length) = decide (0 < bs.length) := by rw [hb]; simp
  rw [hL, hpl]
  unfold step
  simp only
  unfold postBatchRejected
  simp only [hq, List.getLast?_append, List.getLast?_singleton, Option.some_or, List.dropLast_concat, Option.getD_some]
  cases hql2 : q.getLast? with
  | none =>
    have hq0 := List.getLast?_eq_none_iff.1 hql2
    have hb0 : bs = [] := List.length_eq_zero_iff.1 (by rw [← hql, hq0]; rfl)
    subst hb0
    have hH : ∀ a, a < s.heap.length → (s.heap ++ [s.committed])[a]?.getD [] = s.val a := by
      intro a ha; rw [List.getElem?_append_left ha]; rfl
    have hV : s.comView = lastView (⟨l.done, []⟩ : Live).all := by rw [h.comView]; simp [Live.all]
    have he := hentry _ s.comView hV rfl
    simp only
    have key : RegInv reg
        { s with queue := q, heap := s.heap ++ [s.committed], unc := s.heap.length, uncView := s.comView,
                 atUnc := if s.comView < e.2 then s.atUnc.erase e.2 else s.atUnc } ⟨l.done, []⟩ false :=
      { views := hviews
        uncLt := by simp
        comLt := by have := h.comLt; simp; omega
        queueLt := by rw [hq0]; simp
        com := by
          show (s.heap ++ [s.committed])[s.com]?.getD [] = _
          rw [hH _ h.comLt]; exact h.com
        unc := by
          show (s.heap ++ [s.committed])[s.heap.length]?.getD [] = _
          simp [Live.all, h.com]
        qlen := by rw [hq0]; rfl
        queue := by rw [hq0]; simp
        apart := fun _ => ⟨by have := h.comLt; simp only; omega, by rw [hq0]; simp⟩
        uncView := hV
        comView := h.comView
        incrU := he.2.1
        incrC := h.incrC
        entryU := he.1
        entryC := h.entryC
        hasU := ⟨he.2.2.1, he.2.2.2⟩
        hasC := h.hasC }
    have hdec : decide (0 < ([] : List Batch).length) = false := rfl
    rw [hdec]
    by_cases hlt : s.comView < e.2
    · rw [if_pos hlt] at key ⊢; exact key
    · rw [if_neg hlt] at key ⊢; exact key
  | some x =>
    have hx := List.mem_of_getLast? hql2
    have hxs : x ∈ s.queue := by rw [hq]; simp [hx]
    have hi : q[q.length - 1]? = some x := by rw [← List.getLast?_eq_getElem?]; exact hql2
    have hqp : 0 < q.length := List.length_pos_of_mem hx
    have hc : bs[q.length - 1]? = some (bs[q.length - 1]'(by omega)) := List.getElem?_eq_getElem _
    have hxv := hqueue s.heap (fun a _ => rfl) _ x _ hi hc
    rw [List.take_of_length_le (by omega)] at hxv
    have hV : x.2 = lastView (⟨l.done, bs⟩ : Live).all := by
      rw [hxv.2]
      have : bs.getLast? = some (bs[q.length - 1]'(by omega)) := by
        rw [List.getLast?_eq_getElem?]; simp [hql]
      simp [lastView, Live.all, List.getLast?_append, this]
    have he := hentry _ x.2 hV rfl
    simp only
    have hdec : decide (0 < bs.length) = true := by simp; omega
    rw [hdec]
    have key : RegInv reg
        { s with queue := q, unc := x.1, uncView := x.2,
                 atUnc := if x.2 < e.2 then s.atUnc.erase e.2 else s.atUnc } ⟨l.done, bs⟩ true :=
      { views := hviews
        uncLt := h.queueLt x hxs
        comLt := h.comLt
        queueLt := fun y hy => h.queueLt y (by rw [hq]; simp [hy])
        com := h.com
        unc := hxv.1
        qlen := hql
        queue := hqueue s.heap (fun a _ => rfl)
        apart := fun h => by cases h
        uncView := hV
        comView := h.comView
        incrU := he.2.1
        incrC := h.incrC
        entryU := he.1
        entryC := h.entryC
        hasU := ⟨he.2.2.1, he.2.2.2⟩
        hasC := h.hasC }
    by_cases hlt : x.2 < e.2
    · rw [if_pos hlt] at key ⊢; exact key
    · rw [if_neg hlt] at key ⊢; exact key

theorem RegInv.commit {reg : List String} {s : State} {l : Live} {p : Bool} (h : RegInv reg s l p) {b : Batch}
    {bs : List Batch} (hb : l.pending = b :: bs) :
    RegInv reg (step s (.commit b.view)) (l.step (.commit b.view)) p ∧
    (step s (.commit b.view)).votes = s.votes ++
      (if (registry reg l.done).length ≠ (registry reg (l.done ++ [b])).length then [b.view + 1] else []) := by
  have hlen := h.qlen
  obtain ⟨e, q, hq⟩ : ∃ e q, s.queue = e :: q := by
    cases hq : s.queue with
    | nil => rw [hq, hb] at hlen; simp at hlen
    | cons e q => exact ⟨e, q, rfl⟩
  have he := h.queue 0 e b (by rw [hq]; rfl) (by rw [hb]; rfl)
  have hev : s.val e.1 = registry reg (l.done ++ [b]) := by rw [he.1, hb]; simp
  have hL : l.step (.commit b.view) = ⟨l.done ++ [b], bs⟩ := by simp [Live.step, hb]
  have hall : (⟨l.done ++ [b], bs⟩ : Live).all = l.all := by simp [Live.all, hb]
  have hbge : ∀ c ∈ l.done, c.view ≤ b.view := by
    intro c hc
    have := h.views
    unfold Live.all at this
    exact (List.pairwise_append.1 this).2.2 c hc b (by rw [hb]; simp)
  have hviews : Views (l.done ++ [b]) := by
    have := h.views
    rw [← hall] at this
    exact (List.pairwise_append.1 this).1
  have hlv : lastView (l.done ++ [b]) = b.view := by simp [lastView]
  have hcle : s.comView ≤ b.view := by
    rw [h.comView]; unfold lastView
    cases hg : l.done.getLast? with
    | none => simp
    | some c => exact hbge c (List.mem_of_getLast? hg)
  have hqueue : ∀ (i : Nat) x c, q[i]? = some x → bs[i]? = some c →
      s.val x.1 = registry reg ((l.done ++ [b]) ++ bs.take (i + 1)) ∧ x.2 = c.view := by
    intro i x c hx hc
    have := h.queue (i + 1) x c (by rw [hq]; simpa using hx) (by rw [hb]; simpa using hc)
    rw [hb] at this
    simpa using this
  have hvotes : ∀ v : List Nat, (if s.committed.length ≠ (s.val e.1).length then v ++ [b.view + 1] else v) =
      v ++ (if (registry reg l.done).length ≠ (registry reg (l.done ++ [b])).length then [b.view + 1] else []) := by
    intro v
    rw [h.com, hev]
    split <;> simp
  rw [hL]
  unfold step
  simp only
  unfold commitBatch
  by_cases hgt : b.view > s.comView
  · simp only [hgt, if_true, hq, Option.getD_some]
    refine ⟨?_, hvotes s.votes⟩
    have hbd : registry reg l.done = atBeginning reg (l.done ++ [b]) b.view := by
      rw [atBeginning_snoc (Nat.le_refl _)]
      refine (atBeginning_all (fun c hc => ?_)).symm
      have hd : Views l.done := (List.pairwise_append.1 hviews).1
      have := lastView_ge hd hc
      rw [← h.comView] at this
      exact Nat.lt_of_le_of_lt this hgt
    have hcm : ∀ x ∈ sset b.view s.committed s.atCom, x.2 = atBeginning reg (l.done ++ [b]) x.1 ∧ x.1 ≤ b.view := by
      intro x hx
      rcases mem_sset hx with rfl | hx
      · exact ⟨h.com.trans hbd, Nat.le_refl _⟩
      · obtain ⟨h1, h2⟩ := h.entryC x hx
        exact ⟨by rw [atBeginning_snoc (Nat.le_trans h2 hcle)]; exact h1, Nat.le_trans h2 hcle⟩
    exact
      { views := by rw [hall]; exact h.views
        uncLt := h.uncLt
        comLt := h.queueLt e (by rw [hq]; simp)
        queueLt := fun x hx => h.queueLt x (by rw [hq]; simp [hx])
        com := hev
        unc := by rw [hall]; exact h.unc
        qlen := by rw [hq, hb] at hlen; simpa using hlen
        queue := hqueue
        apart := fun hp => ⟨(h.apart hp).2 e (by rw [hq]; simp), fun x hx => (h.apart hp).2 x (by rw [hq]; simp [hx])⟩
        uncView := by rw [hall]; exact h.uncView
        comView := hlv.symm
        incrU := incr_gc h.incrU
        incrC := incr_gc (incr_sset _ _ h.incrC)
        entryU := by rw [hall]; exact fun x hx => h.entryU x (mem_gc hx)
        entryC := fun x hx => hcm x (mem_gc hx)
        hasU := by
          refine ⟨?_, ?_⟩
          · obtain ⟨y, hy⟩ := h.hasU.2 b (by rw [hb]; simp)
            exact ⟨y, gc_keeps h.incrU hy (Nat.le_refl _)⟩
          · intro c hc
            obtain ⟨y, hy⟩ := h.hasU.2 c (by rw [hb]; simp [hc])
            refine ⟨y, gc_keeps h.incrU hy ?_⟩
            have := h.views
            unfold Live.all at this
            rw [hb] at this
            exact (List.pairwise_cons.1 (List.pairwise_append.1 this).2.1).1 c hc
        hasC := ⟨_, gc_keeps (incr_sset _ _ h.incrC) (mem_sset_self _ _ _) (Nat.le_refl _)⟩ }
  · have hce : s.comView = b.view := by omega
    simp only [hgt, if_false, hq, Option.getD_some]
    refine ⟨?_, hvotes s.votes⟩
    exact
      { views := by rw [hall]; exact h.views
        uncLt := h.uncLt
        comLt := h.queueLt e (by rw [hq]; simp)
        queueLt := fun x hx => h.queueLt x (by rw [hq]; simp [hx])
        com := hev
        unc := by rw [hall]; exact h.unc
        qlen := by rw [hq, hb] at hlen; simpa using hlen
        queue := hqueue
        apart := fun hp => ⟨(h.apart hp).2 e (by rw [hq]; simp), fun x hx => (h.apart hp).2 x (by rw [hq]; simp [hx])⟩
        uncView := by rw [hall]; exact h.uncView
        comView := by rw [hlv]; exact hce
        incrU := h.incrU
        incrC := h.incrC
        entryU := by rw [hall]; exact h.entryU
        entryC := fun x hx => by
          obtain ⟨h1, h2⟩ := h.entryC x hx
          exact ⟨by rw [atBeginning_snoc (Nat.le_trans h2 hcle)]; exact h1, h2⟩
        hasU := ⟨h.hasU.1, fun c hc => h.hasU.2 c (by rw [hb]; simp [hc])⟩
        hasC := h.hasC }

theorem RegInv.run {reg : List String} {s : State} {l : Live} {p : Bool} (h : RegInv reg s l p) (ops : List Op)
    (hh : History l ops) (hn : NoChangeAfterPartialRevert reg p l ops) :
    ∃ p', RegInv reg (ops.foldl step s) (ops.foldl Live.step l) p' := by
  induction ops generalizing s l p with
  | nil => exact ⟨p, h⟩
  | cons o ops ih =>
    simp only [List.foldl_cons]
    obtain ⟨h1, h2⟩ := hh
    obtain ⟨n1, n2⟩ := hn
    cases o with
    | apply rs view => exact ih (h.apply rs view h1 n1) h2 n2
    | reject => exact ih (h.reject h1) h2 n2
    | commit view =>
      obtain ⟨b, hb, rfl⟩ := h1
      cases hp : l.pending with
      | nil => rw [hp] at hb; cases hb
      | cons c bs =>
        rw [hp] at hb; cases hb
        exact ih (h.commit hp).1 h2 n2

/-! ### The view before the committed one -/

/-- `v` is the last view with a batch before view `c`. -/
def PrevView (bs : List Batch) (c v : Nat) : Prop :=
  (∃ b ∈ bs, b.view = v) ∧ v < c ∧ ∀ b ∈ bs, b.view < c → b.view ≤ v

theorem sset_keeps {k : Nat} {v : List String} {d : Dict Nat (List String)} {e : Nat × List String} (h : e ∈ d)
    (hk : e.1 ≠ k) : e ∈ sset k v d := by
  induction d with
  | nil => cases h
  | cons x d ih =>
    unfold sset
    split
    · next hx =>
      rcases List.mem_cons.1 h with h | h
      · subst h; exact absurd hx.symm hk
      · exact List.mem_cons_of_mem _ h
    · split
      · exact List.mem_cons_of_mem _ h
      · rcases List.mem_cons.1 h with h | h
        · exact h ▸ List.mem_cons_self
        · exact List.mem_cons_of_mem _ (ih h)

theorem sset_below {k c : Nat} {v : List String} {d : Dict Nat (List String)} (hc : c ≤ k) :
    (sset k v d).filter (fun e => e.1 < c) = d.filter (fun e => e.1 < c) := by
  induction d with
  | nil => simp [sset]; omega
  | cons x d ih =>
    unfold sset
    split
    · next hx =>
      rw [List.filter_cons_of_neg (by simp; omega), List.filter_cons_of_neg (by simp; omega)]
    · split
      · rw [List.filter_cons_of_neg (by simp; omega)]
      · simp only [List.filter_cons, ih]

theorem keyIndex_of_mem {k : Nat} {x : List String} {d : Dict Nat (List String)} (h : (k, x) ∈ d) :
    ∃ i, keyIndex k d = some i := by
  induction d with
  | nil => cases h
  | cons e d ih =>
    unfold keyIndex
    split
    · exact ⟨0, rfl⟩
    · next hne =>
      rcases List.mem_cons.1 h with h | h
      · subst h; exact absurd rfl hne
      · obtain ⟨i, hi⟩ := ih h
        exact ⟨i + 1, by rw [hi]; rfl⟩

/-- The entry just below the committed view stays too, and it is the only one below. -/
theorem gc_prev {c : Nat} {d : Dict Nat (List String)} (hd : Incr d) {x : List String} (hx : (c, x) ∈ d) :
    (∀ e ∈ d, e.1 < c → (∀ y ∈ d, y.1 < c → y.1 ≤ e.1) → e ∈ gc c d) ∧
    ((gc c d).filter (fun e => e.1 < c)).length ≤ 1 := by
  obtain ⟨i, hi⟩ := keyIndex_of_mem hx
  obtain ⟨x', hx'⟩ := keyIndex_spec hi
  obtain ⟨hil, hix⟩ := List.getElem?_eq_some_iff.1 hx'
  have hlt : ∀ (a b : Nat) (ha : a < d.length) (hb : b < d.length), a < b → (d[a]).1 < (d[b]).1 := fun a b ha hb h =>
    List.pairwise_iff_getElem.1 hd a b ha hb h
  unfold gc
  rw [hi]
  constructor
  · intro e he hec hmax
    obtain ⟨j, hj, hje⟩ := List.getElem_of_mem he
    have hji : j < i := by
      refine Classical.byContradiction fun hge => ?_
      rcases (show i = j ∨ i < j by omega) with h | h
      · subst h; rw [hix] at hje; subst hje; simp at hec
      · have := hlt i j hil hj h; rw [hix, hje] at this; simp at this; omega
    have hjm : j = i - 1 := by
      refine Classical.byContradiction fun hne => ?_
      have h1 := hlt j (i - 1) hj (by omega) (by omega)
      have h2 := hlt (i - 1) i (by omega) hil (by omega)
      rw [hix] at h2
      have := hmax _ (List.getElem_mem (show i - 1 < d.length by omega)) h2
      rw [hje] at h1; omega
    refine List.mem_iff_getElem.2 ⟨0, by simp; omega, ?_⟩
    rw [List.getElem_drop]
    simp only [Nat.add_zero, ← hjm, hje]
  · have hrest : (d.drop i).filter (fun e => e.1 < c) = [] := by
      refine List.filter_eq_nil_iff.2 fun y hy => ?_
      obtain ⟨k, hk⟩ := List.mem_iff_getElem?.1 hy
      rw [List.getElem?_drop] at hk
      obtain ⟨hkl, hky⟩ := List.getElem?_eq_some_iff.1 hk
      by_cases hk0 : k = 0
      · subst hk0
        simp only [Nat.add_zero] at hky
        rw [hix] at hky; subst hky; simp
      · have := hlt i (i + k) hil hkl (by omega)
        rw [hix, hky] at this
        simp only at this
        simp; omega
    by_cases h0 : i = 0
    · subst h0; simp only [Nat.zero_sub]; rw [hrest]; simp
    · have he : d.drop (i - 1) = d[i - 1] :: d.drop i := by
        rw [List.drop_eq_getElem_cons (by omega), Nat.sub_add_cancel (by omega)]
      simp only [he, List.filter_cons, hrest]
      split <;> simp

/-- The entry for the view before the committed one is there, and none for an older view. -/
structure PrevInv (s : State) (l : Live) : Prop where
  prevC : ∀ v, PrevView l.done s.comView v → ∃ x, (v, x) ∈ s.atCom
  fewC : (s.atCom.filter (fun e => e.1 < s.comView)).length ≤ 1
  prevU : ∀ v, PrevView l.done s.comView v → ∃ x, (v, x) ∈ s.atUnc
  fewU : (s.atUnc.filter (fun e => e.1 < s.comView)).length ≤ 1

theorem lastView_le {bs : List Batch} {v : Nat} (h : ∀ b ∈ bs, b.view ≤ v) : lastView bs ≤ v := by
  unfold lastView
  cases hg : bs.getLast? with
  | none => simp
  | some c => exact h c (List.mem_of_getLast? hg)

theorem PrevInv.apply {reg : List String} {s : State} {l : Live} {p : Bool} (h : RegInv reg s l p) (hq : PrevInv s l)
    (rs : List Req) (view : Nat) : PrevInv (step s (.apply rs view)) (l.step (.apply rs view)) := by
  have hcu : s.comView ≤ s.uncView := by
    rw [h.comView, h.uncView]
    exact lastView_le (fun b hb => lastView_ge h.views (by simp [Live.all, hb]))
  unfold step
  simp only
  rw [applyRequests_eq s rs h.uncLt]
  unfold postBatchApplied
  by_cases hgt : view > s.uncView
  · simp only [hgt, if_true]
    exact
      { prevC := hq.prevC
        fewC := hq.fewC
        prevU := fun v hv => by
          obtain ⟨x, hx⟩ := hq.prevU v hv
          exact ⟨x, sset_keeps hx (by have := hv.2.1; simp only at this ⊢; omega)⟩
        fewU := by
          show ((sset view _ s.atUnc).filter (fun e => e.1 < s.comView)).length ≤ 1
          rw [sset_below (by omega)]; exact hq.fewU }
  · simp only [hgt, if_false]
    exact ⟨hq.prevC, hq.fewC, hq.prevU, hq.fewU⟩

theorem PrevInv.reject {reg : List String} {s : State} {l : Live} {p : Bool} (h : RegInv reg s l p) (hq : PrevInv s l) :
    PrevInv (step s .reject) (l.step .reject) := by
  have key : ∀ (s' : State), s'.atCom = s.atCom → s'.comView = s.comView →
      (s'.atUnc = s.atUnc ∨ ∃ v, s.comView ≤ v ∧ s'.atUnc = s.atUnc.erase v) → PrevInv s' (l.step .reject) := by
    intro s' h1 h2 h3
    refine ⟨by rw [h1, h2]; exact hq.prevC, by rw [h1, h2]; exact hq.fewC, ?_, ?_⟩
    · rw [h2]
      intro v hv
      obtain ⟨x, hx⟩ := hq.prevU v hv
      rcases h3 with h3 | ⟨w, hw, h3⟩
      · rw [h3]; exact ⟨x, hx⟩
      · rw [h3]
        have := hv.2.1
        exact ⟨x, List.mem_filter.2 ⟨hx, by simp; omega⟩⟩
    · rw [h2]
      rcases h3 with h3 | ⟨w, hw, h3⟩
      · rw [h3]; exact hq.fewU
      · rw [h3]
        refine Nat.le_trans ?_ hq.fewU
        exact List.Sublist.length_le (List.Sublist.filter _ List.filter_sublist)
  unfold step
  simp only
  unfold postBatchRejected
  cases hg : s.queue.getLast? with
  | none => exact key s rfl rfl (Or.inl rfl)
  | some e =>
    have he := List.mem_of_getLast? hg
    have hev : s.comView ≤ e.2 := by
      obtain ⟨i, hi⟩ := List.mem_iff_getElem?.1 he
      have hil := (List.getElem?_eq_some_iff.1 hi).1
      have hb : l.pending[i]? = some (l.pending[i]'(by rw [← h.qlen]; exact hil)) := List.getElem?_eq_getElem _
      rw [(h.queue i e _ hi hb).2, h.comView]
      refine lastView_le (fun c hc => ?_)
      have := h.views
      unfold Live.all at this
      exact (List.pairwise_append.1 this).2.2 c hc _ (List.mem_of_getElem? hb)
    cases hr : s.queue.dropLast.getLast? with
    | none =>
      simp only [hr, Option.getD_some]
      split
      · exact key _ rfl rfl (Or.inr ⟨e.2, hev, rfl⟩)
      · exact key _ rfl rfl (Or.inl rfl)
    | some x =>
      simp only [hr, Option.getD_some]
      split
      · exact key _ rfl rfl (Or.inr ⟨e.2, hev, rfl⟩)
      · exact key _ rfl rfl (Or.inl rfl)

theorem PrevInv.commit {reg : List String} {s : State} {l : Live} {p : Bool} (h : RegInv reg s l p) (hq : PrevInv s l)
    {b : Batch} {bs : List Batch} (hb : l.pending = b :: bs) :
    PrevInv (step s (.commit b.view)) (l.step (.commit b.view)) := by
  have hlen := h.qlen
  obtain ⟨e, q, hqq⟩ : ∃ e q, s.queue = e :: q := by
    cases hq : s.queue with
    | nil => rw [hq, hb] at hlen; simp at hlen
    | cons e q => exact ⟨e, q, rfl⟩
  have hL : l.step (.commit b.view) = ⟨l.done ++ [b], bs⟩ := by simp [Live.step, hb]
  have hd : Views l.done := by
    have := h.views; unfold Live.all at this; exact (List.pairwise_append.1 this).1
  have hge : ∀ c ∈ l.all, c.view < b.view → c ∈ l.done := by
    intro c hc hlt
    rcases List.mem_append.1 hc with hc | hc
    · exact hc
    · have := h.views
      unfold Live.all at this
      rw [hb] at this hc
      rcases List.mem_cons.1 hc with hc | hc
      · subst hc; omega
      · have := (List.pairwise_cons.1 (List.pairwise_append.1 this).2.1).1 c hc
        omega
  rw [hL]
  unfold step
  simp only
  unfold commitBatch
  by_cases hgt : b.view > s.comView
  · simp only [hgt, if_true, hqq, Option.getD_some]
    -- the view before is the one committed until now
    have hprev : ∀ v, PrevView (l.done ++ [b]) b.view v → v = s.comView := by
      intro v ⟨⟨c, hc, hcv⟩, hlt, hmax⟩
      rcases List.mem_append.1 hc with hc | hc
      · have h1 := lastView_ge hd hc
        rw [← h.comView] at h1
        have : s.comView ≤ v := by
          rw [h.comView]
          exact lastView_le (fun x hx => hmax x (by simp [hx]) (by
            have := lastView_ge hd hx; rw [← h.comView] at this; omega))
        omega
      · simp at hc; subst hc; omega
    obtain ⟨x, hx⟩ := h.hasU.2 b (by rw [hb]; simp)
    have gU := gc_prev h.incrU hx
    have gC := gc_prev (incr_sset b.view s.committed h.incrC) (mem_sset_self _ _ _)
    exact
      { prevC := fun v hv => by
          have hv := hprev v hv
          subst hv
          obtain ⟨y, hy⟩ := h.hasC
          refine ⟨y, gC.1 _ (sset_keeps hy (by simp only; omega)) hgt ?_⟩
          intro z hz hzv
          rcases mem_sset hz with rfl | hz
          · simp at hzv
          · exact (h.entryC z hz).2
        fewC := gC.2
        prevU := fun v hv => by
          have hv := hprev v hv
          subst hv
          obtain ⟨y, hy⟩ := h.hasU.1
          refine ⟨y, gU.1 _ hy hgt ?_⟩
          intro z hz hzv
          rcases (h.entryU z hz).2 with h0 | ⟨c, hc, hcv⟩
          · omega
          · have h1 := lastView_ge hd (hge c hc (by omega))
            rw [← h.comView] at h1
            simp only; omega
        fewU := gU.2 }
  · simp only [hgt, if_false, hqq, Option.getD_some]
    have hcv : s.comView = b.view := by
      have : s.comView ≤ b.view := by
        rw [h.comView]
        refine lastView_le (fun c hc => ?_)
        have := h.views
        unfold Live.all at this
        exact (List.pairwise_append.1 this).2.2 c hc b (by rw [hb]; simp)
      omega
    have hprev : ∀ v, PrevView (l.done ++ [b]) s.comView v → PrevView l.done s.comView v := by
      intro v ⟨⟨c, hc, hcv'⟩, hlt, hmax⟩
      refine ⟨⟨c, ?_, hcv'⟩, hlt, fun x hx => hmax x (by simp [hx])⟩
      rcases List.mem_append.1 hc with hc | hc
      · exact hc
      · simp at hc; subst hc; omega
    exact ⟨fun v hv => hq.prevC v (hprev v hv), hq.fewC, fun v hv => hq.prevU v (hprev v hv), hq.fewU⟩

theorem PrevInv.run {reg : List String} {s : State} {l : Live} {p : Bool} (h : RegInv reg s l p) (hq : PrevInv s l)
    (ops : List Op) (hh : History l ops) (hn : NoChangeAfterPartialRevert reg p l ops) :
    PrevInv (ops.foldl step s) (ops.foldl Live.step l) := by
  induction ops generalizing s l p with
  | nil => exact hq
  | cons o ops ih =>
    simp only [List.foldl_cons]
    obtain ⟨h1, h2⟩ := hh
    obtain ⟨n1, n2⟩ := hn
    cases o with
    | apply rs view => exact ih (h.apply rs view h1 n1) (PrevInv.apply h hq rs view) h2 n2
    | reject => exact ih (h.reject h1) (PrevInv.reject h hq) h2 n2
    | commit view =>
      obtain ⟨b, hb, rfl⟩ := h1
      cases hp : l.pending with
      | nil => rw [hp] at hb; cases hb
      | cons c bs =>
        rw [hp] at hb; cases hb
        exact ih (h.commit hp).1 (PrevInv.commit h hq hp) h2 n2

/-! ## C36 -/

/-- **C36 (partial).** After every history of applied, committed and rejected batches the committed registry is the
one of the committed batches, and the uncommitted registry that of all live batches, so a rejected batch leaves no
trace; every registry kept for the beginning of a view is the one with the batches of all earlier views, and the
active registry is that of the last view. Missing: histories in which a batch changes the registry after a
rejection which left batches pending, see `C36_shared_list`. -/
theorem C36_revert_partial (reg : List String) (ops : List Op) (hh : History ⟨[], []⟩ ops)
    (hn : NoChangeAfterPartialRevert reg false ⟨[], []⟩ ops) :
    (run reg ops).uncommitted = registry reg (live ops).all ∧
    (run reg ops).committed = registry reg (live ops).done ∧
    (∀ e ∈ (run reg ops).atUnc, e.2 = atBeginning reg (live ops).all e.1) ∧
    (∀ e ∈ (run reg ops).atCom, e.2 = atBeginning reg (live ops).done e.1) ∧
    (run reg ops).active = atBeginning reg (live ops).all (lastView (live ops).all) ∧
    (run reg ops).atCom.getLast? =
      some (lastView (live ops).done, atBeginning reg (live ops).done (lastView (live ops).done)) := by
  obtain ⟨p, h⟩ := (RegInv.boot reg).run ops hh hn
  have h : RegInv reg (NodeReg.run reg ops) (live ops) p := h
  refine ⟨h.unc, h.com, fun e he => (h.entryU e he).1, fun e he => (h.entryC e he).1, ?_, ?_⟩
  · have hmem : ∃ x, (lastView (live ops).all, x) ∈ (NodeReg.run reg ops).atUnc := by
      cases hl : (live ops).pending.getLast? with
      | none =>
        have hn := List.getLast?_eq_none_iff.1 hl
        have : lastView (live ops).all = lastView (live ops).done := by simp [Live.all, hn]
        rw [this, ← h.comView]; exact h.hasU.1
      | some b =>
        have : lastView (live ops).all = b.view := by simp [lastView, Live.all, List.getLast?_append, hl]
        rw [this]; exact h.hasU.2 b (List.mem_of_getLast? hl)
    obtain ⟨x, hx⟩ := hmem
    have hmax : ∀ e ∈ (NodeReg.run reg ops).atUnc, e.1 ≤ lastView (live ops).all := by
      intro e he
      rcases (h.entryU e he).2 with h2 | ⟨b, hb, h2⟩
      · omega
      · rw [← h2]; exact lastView_ge h.views hb
    unfold State.active
    rw [last_of_max h.incrU hx hmax]
    exact (h.entryU _ hx).1
  · obtain ⟨x, hx⟩ := h.hasC
    have hmax : ∀ e ∈ (NodeReg.run reg ops).atCom, e.1 ≤ (NodeReg.run reg ops).comView := fun e he => (h.entryC e he).2
    rw [last_of_max h.incrC hx hmax]
    have := (h.entryC _ hx).1
    simp only at this
    rw [this, h.comView]

/-- **C36 (partial), votes.** On such histories the next commit asks for a view change exactly if the number of
committed validators changes, and asks for the view after the batch's. -/
theorem C36_vote_partial (reg : List String) (ops : List Op) (hh : History ⟨[], []⟩ ops)
    (hn : NoChangeAfterPartialRevert reg false ⟨[], []⟩ ops) (b : Batch) (hb : (live ops).pending.head? = some b) :
    (run reg (ops ++ [.commit b.view])).votes = (run reg ops).votes ++
      (if (registry reg (live ops).done).length ≠ (registry reg ((live ops).done ++ [b])).length
        then [b.view + 1] else []) := by
  obtain ⟨p, h⟩ := (RegInv.boot reg).run ops hh hn
  have h : RegInv reg (NodeReg.run reg ops) (live ops) p := h
  cases hp : (live ops).pending with
  | nil => rw [hp] at hb; cases hb
  | cons c bs =>
    rw [hp] at hb; cases hb
    have := (h.commit hp).2
    simpa [NodeReg.run] using this

/-- **C36 (partial), the view before.** On such histories the registry at the beginning of the last view before the
committed one is kept, and that of no older view but one: committed and uncommitted. -/
theorem C36_previous_view_partial (reg : List String) (ops : List Op) (hh : History ⟨[], []⟩ ops)
    (hn : NoChangeAfterPartialRevert reg false ⟨[], []⟩ ops) :
    (∀ b ∈ (live ops).done, b.view < lastView (live ops).done →
      (∀ c ∈ (live ops).done, c.view < lastView (live ops).done → c.view ≤ b.view) →
      (b.view, atBeginning reg (live ops).done b.view) ∈ (run reg ops).atCom ∧
      (b.view, atBeginning reg (live ops).all b.view) ∈ (run reg ops).atUnc) ∧
    ((run reg ops).atCom.filter (fun e => e.1 < lastView (live ops).done)).length ≤ 1 ∧
    ((run reg ops).atUnc.filter (fun e => e.1 < lastView (live ops).done)).length ≤ 1 := by
  obtain ⟨p, h⟩ := (RegInv.boot reg).run ops hh hn
  have h : RegInv reg (NodeReg.run reg ops) (live ops) p := h
  have hq : PrevInv (NodeReg.run reg ops) (live ops) :=
    PrevInv.run (RegInv.boot reg) (s := NodeReg.boot reg) (l := ⟨[], []⟩)
      ⟨fun v hv => (by obtain ⟨⟨b, hb, _⟩, _⟩ := hv; cases hb), by simp [NodeReg.boot],
       fun v hv => (by obtain ⟨⟨b, hb, _⟩, _⟩ := hv; cases hb), by simp [NodeReg.boot]⟩ ops hh hn
  rw [← h.comView]
  refine ⟨fun b hb hlt hmax => ?_, hq.fewC, hq.fewU⟩
  have hv : PrevView (live ops).done (NodeReg.run reg ops).comView b.view := ⟨⟨b, hb, rfl⟩, hlt, hmax⟩
  obtain ⟨x, hx⟩ := hq.prevC _ hv
  obtain ⟨y, hy⟩ := hq.prevU _ hv
  have h1 := (h.entryC _ hx).1
  have h2 := (h.entryU _ hy).1
  simp only at h1 h2
  rw [← h1, ← h2]
  exact ⟨hx, hy⟩

/-- **C36, members.** A registry lists each node once, and lists those of which the last request with services says
that they are validators, or which were there at first if there is no such request. -/
theorem C36_members (reg : List String) (hr : reg.Nodup) (bs : List Batch) :
    (registry reg bs).Nodup ∧
    ∀ x, x ∈ registry reg bs ↔ (says (bs.flatMap (·.reqs)) x).getD (decide (x ∈ reg)) = true := by
  have hflat : registry reg bs = (bs.flatMap (·.reqs)).foldl change reg := by
    unfold registry
    induction bs generalizing reg with
    | nil => rfl
    | cons b bs ih =>
      simp only [List.foldl_cons, List.flatMap_cons, List.foldl_append]
      have hb : (b.reqs.foldl change reg).Nodup := by
        generalize b.reqs = rs
        induction rs generalizing reg with
        | nil => exact hr
        | cons r rs ih2 =>
          refine ih2 _ ?_
          unfold change
          split
          · exact hr
          · split
            · next h => exact List.nodup_append.2 ⟨hr, by simp, by intro a ha c hc; simp at hc; subst hc; rintro rfl; exact h.1 ha⟩
            · split
              · exact hr.erase _
              · exact hr
      exact ih _ hb
  rw [hflat]
  generalize bs.flatMap (·.reqs) = rs
  induction rs using snoc_induction with
  | nil => exact ⟨hr, by simp [says]⟩
  | snoc rs r ih =>
    obtain ⟨hn, hm⟩ := ih
    simp only [List.foldl_append, List.foldl_cons, List.foldl_nil]
    have hs : ∀ x, says (rs ++ [r]) x = if r.alias = x ∧ r.validator.isSome = true then r.validator else says rs x := by
      intro x
      unfold says
      rw [List.reverse_append]
      simp only [List.reverse_cons, List.reverse_nil, List.nil_append, List.singleton_append, List.find?_cons]
      by_cases h1 : r.alias = x <;> by_cases h2 : r.validator.isSome = true <;> simp_all
    generalize rs.foldl change reg = l at hn hm
    refine ⟨?_, fun x => ?_⟩
    · unfold change
      split
      · exact hn
      · split
        · next h => exact List.nodup_append.2 ⟨hn, by simp, by intro a ha c hc; simp at hc; subst hc; rintro rfl; exact h.1 ha⟩
        · split
          · exact hn.erase _
          · exact hn
    · rw [hs]
      unfold change
      cases hv : r.validator with
      | none => simp only [Option.isSome_none, Bool.false_eq_true, and_false, if_false]; exact hm x
      | some v =>
        simp only [Option.isSome_some, and_true]
        by_cases hx : r.alias = x
        · subst hx
          simp only [if_true, Option.getD_some]
          cases v with
          | true =>
            by_cases hl : r.alias ∈ l <;> simp [hl]
          | false =>
            by_cases hl : r.alias ∈ l
            · simp only [hl, not_true, Bool.false_eq_true, and_false, and_true, if_false, if_true, iff_false]
              exact fun h => (List.Nodup.mem_erase_iff hn).1 h |>.1 rfl
            · simp [hl]
        · rw [if_neg hx, ← hm x]
          split
          · simp [Ne.symm hx]
          · split
            · exact List.mem_erase_of_ne (Ne.symm hx)
            · exact Iff.rfl

/-- A history with a promotion which is rejected, one which is committed, and a view change. -/
def exRegOps : List Op :=
  [.apply [] 0, .apply [⟨"E", some true⟩] 0, .reject, .reject, .apply [⟨"F", some true⟩] 0, .apply [⟨"A", some false⟩] 1,
   .commit 0, .apply [] 1, .reject, .reject, .apply [] 2]

example : History ⟨[], []⟩ exRegOps ∧ NoChangeAfterPartialRevert ["A", "B"] false ⟨[], []⟩ exRegOps ∧
    (run ["A", "B"] exRegOps).uncommitted = ["A", "B", "F"] ∧ (run ["A", "B"] exRegOps).committed = ["A", "B", "F"] ∧
    (run ["A", "B"] exRegOps).atUnc = [(0, ["A", "B"]), (2, ["A", "B", "F"])] ∧
    (run ["A", "B"] exRegOps).votes = [1] := by
  refine ⟨?_, ?_, by decide, by decide, by decide, by decide⟩
  · simp [exRegOps, History, Live.step, Live.all, lastView]
  · simp [exRegOps, NoChangeAfterPartialRevert, Live.step, Live.all]

/-- Two batches, the second rejected, the first committed, then a batch with a promotion, rejected too. -/
def sharedOps : List Op :=
  [.apply [] 0, .apply [] 0, .reject, .commit 0, .apply [⟨"E", some true⟩] 0, .reject]

/-- **C36 fails.** After a rejection which leaves a batch pending the uncommitted registry is the list object of that
batch. The next promotion is then written into it, into the committed registry too once that batch is committed, and
stays there although the batch with the promotion is rejected. -/
theorem C36_shared_list : History ⟨[], []⟩ sharedOps ∧
    registry ["A", "B", "C", "D"] (live sharedOps).all = ["A", "B", "C", "D"] ∧
    (run ["A", "B", "C", "D"] sharedOps).uncommitted = ["A", "B", "C", "D", "E"] ∧
    (run ["A", "B", "C", "D"] sharedOps).committed = ["A", "B", "C", "D", "E"] := by
  refine ⟨?_, by decide, by decide, by decide⟩
  simp [sharedOps, History, Live.step, Live.all, lastView]

/-! ## C66: what a restarted node reads from the audit ledger -/

open Verif.Audit in
/-- A transaction with a distance for the primaries belongs to a batch with the primaries of the one before. -/
theorem same_primaries {log : List Txn} {bs : List Audit.Batch} (h : Good log bs) {i n : Nat} {t : Txn}
    {b : Audit.Batch} (ht : log[i]? = some t) (hb : bs[i]? = some b) (hn : t.primaries = .back n) :
    0 < i ∧ ∃ u a, log[i - 1]? = some u ∧ bs[i - 1]? = some a ∧ a.primaries = b.primaries ∧
      t.primaries = bump u.primaries := by
  have hs := h.says i t b ht hb
  obtain ⟨hi, u, hu, hbu⟩ := hs.chain n hn
  have hlt := (List.getElem?_eq_some_iff.1 hb).1
  have ha : bs[i - 1]? = some (bs[i - 1]'(by omega)) := List.getElem?_eq_getElem _
  have hsa := h.says _ u _ hu ha
  refine ⟨hi, u, _, hu, ha, ?_, hbu⟩
  have := follow_bump (field := fun t => some t.primaries) hu rfl hsa.prim
    (by rw [Nat.sub_add_cancel hi]; exact ht) (by simp [hbu])
  rw [Nat.sub_add_cancel hi, hs.prim] at this
  exact (Option.some.inj this).symm

open Verif.Audit in
/-- Between the transaction with the list and the one with the distance the view is the same, if primaries change
with the view. -/
theorem same_view {log : List Txn} {bs : List Audit.Batch} (h : Good log bs) (hc : PrimariesChange bs) {n i : Nat}
    {t : Txn} (ht : log[i]? = some t) (hn : t.primaries = .back n) :
    1 ≤ n ∧ n ≤ i ∧ ∀ k, i - n ≤ k → k ≤ i → (log[k]?).map Txn.viewNo = some t.viewNo := by
  induction n generalizing i t with
  | zero =>
    have hlt : i < bs.length := by rw [← h.len]; exact (List.getElem?_eq_some_iff.1 ht).1
    have := follow_back (field := fun t => some t.primaries) (n := 0) ht (by simp [hn])
      (h.says i t _ ht (List.getElem?_eq_getElem hlt)).prim
    omega
  | succ n ih =>
    have hlt : i < bs.length := by rw [← h.len]; exact (List.getElem?_eq_some_iff.1 ht).1
    have hb : bs[i]? = some bs[i] := List.getElem?_eq_getElem hlt
    obtain ⟨hi, u, a, hu, ha, hp, hbu⟩ := same_primaries h ht hb hn
    have hv : u.viewNo = t.viewNo := by
      rw [(h.says _ u a hu ha).view, (h.says _ t _ ht hb).view]
      refine Classical.byContradiction fun hne => ?_
      exact hc (i - 1) a _ ha (by rw [Nat.sub_add_cancel hi]; exact hb) hne hp
    rw [hn] at hbu
    cases hup : u.primaries with
    | here v =>
      rw [hup] at hbu
      simp only [bump] at hbu
      have hn0 : n = 0 := by injection hbu with h; omega
      subst hn0
      refine ⟨by omega, by omega, fun k h1 h2 => ?_⟩
      rcases (show k = i - 1 ∨ k = i by omega) with rfl | rfl
      · rw [hu]; simp [hv]
      · rw [ht]; rfl
    | back m =>
      rw [hup] at hbu
      simp only [bump] at hbu
      have hnm : n = m := by injection hbu with h; omega
      subst hnm
      obtain ⟨h1, h2, h3⟩ := ih hu hup
      refine ⟨by omega, by omega, fun k h4 h5 => ?_⟩
      by_cases hk : k = i
      · subst hk; rw [ht]; rfl
      · rw [h3 k (by omega) (by omega), hv]

open Verif.Audit in
theorem firstInView_spec {log : List Txn} {bs : List Audit.Batch} (h : Good log bs) (hc : PrimariesChange bs) (i : Nat)
    {view : Nat} (hv : (log[i]?).map Txn.viewNo = some view) :
    (firstInView log view i).1 ≤ i ∧
    (∀ k, (firstInView log view i).1 ≤ k → k ≤ i → (log[k]?).map Txn.viewNo = some view) ∧
    ((firstInView log view i).1 = 0 ∧ (firstInView log view i).2 = none ∨
      0 < (firstInView log view i).1 ∧ (firstInView log view i).2 = some ((firstInView log view i).1 - 1) ∧
      (log[(firstInView log view i).1 - 1]?).map Txn.viewNo ≠ some view) := by
  induction i using Nat.strongRecOn with
  | ind i ih =>
    cases ht : log[i]? with
    | none => rw [ht] at hv; cases hv
    | some t =>
      have htv : t.viewNo = view := by rw [ht] at hv; simpa using hv
      have hj : jump log i ≤ i ∧ ∀ k, jump log i ≤ k → k ≤ i → (log[k]?).map Txn.viewNo = some view := by
        refine ⟨jump_le log i, ?_⟩
        unfold jump
        cases hp : t.primaries with
        | here v =>
          simp only [ht, Option.map_some, hp]
          intro k h1 h2
          have : k = i := by omega
          subst this; rw [ht]; simp [htv]
        | back n =>
          simp only [ht, Option.map_some, hp]
          rw [← htv]
          exact (same_view h hc ht hp).2.2
      rw [firstInView]
      by_cases h0 : jump log i = 0
      · rw [if_pos h0]
        refine ⟨Nat.zero_le _, fun k _ h2 => hj.2 k (by omega) h2, Or.inl ⟨rfl, rfl⟩⟩
      · rw [if_neg h0]
        by_cases hne : (log[jump log i - 1]?).map Txn.viewNo ≠ some view
        · rw [if_pos hne]
          exact ⟨hj.1, hj.2, Or.inr ⟨by show 0 < jump log i; omega, rfl, hne⟩⟩
        · rw [if_neg hne]
          have heq : (log[jump log i - 1]?).map Txn.viewNo = some view := Classical.byContradiction hne
          obtain ⟨h1, h2, h3⟩ := ih (jump log i - 1) (by omega) heq
          refine ⟨by omega, fun k h4 h5 => ?_, h3⟩
          by_cases hk : k ≤ jump log i - 1
          · exact h2 k h4 hk
          · exact hj.2 k (by omega) h5

/-- The batches of the views before that of the batch at position `j` are the first `j`, if the batch before it is of
another view. -/
theorem atBeginning_take {reg : List String} {rb : List Batch} (hs : rb.Pairwise (fun a b => a.view ≤ b.view)) {j : Nat}
    {b : Batch} (hb : rb[j]? = some b) (hj : j = 0 ∨ ∃ a, rb[j - 1]? = some a ∧ a.view ≠ b.view) :
    atBeginning reg rb b.view = registry reg (rb.take j) := by
  unfold atBeginning
  congr 1
  have hlt := (List.getElem?_eq_some_iff.1 hb).1
  have hget : ∀ (k m : Nat) x y, rb[k]? = some x → rb[m]? = some y → k ≤ m → x.view ≤ y.view := by
    intro k m x y hx hy hkm
    by_cases he : k = m
    · subst he; rw [hx] at hy; cases hy; exact Nat.le_refl _
    · obtain ⟨h1, rfl⟩ := List.getElem?_eq_some_iff.1 hx
      obtain ⟨h2, rfl⟩ := List.getElem?_eq_some_iff.1 hy
      exact List.pairwise_iff_getElem.1 hs k m h1 h2 (by omega)
  have e : rb = rb.take j ++ rb.drop j := (List.take_append_drop j rb).symm
  have h1 : (rb.take j).filter (·.view < b.view) = rb.take j := by
    refine List.filter_eq_self.2 fun c hc => ?_
    obtain ⟨k, hk⟩ := List.mem_iff_getElem?.1 hc
    have hkl : k < j := by
      have := (List.getElem?_eq_some_iff.1 hk).1
      simp at this; omega
    rw [List.getElem?_take_of_lt hkl] at hk
    rcases hj with hj | ⟨a, ha, hne⟩
    · omega
    · have h2 := hget k (j - 1) c a hk ha (by omega)
      have h3 := hget (j - 1) j a b ha hb (by omega)
      simp; omega
  have h2 : (rb.drop j).filter (·.view < b.view) = [] := by
    refine List.filter_eq_nil_iff.2 fun c hc => ?_
    obtain ⟨k, hk⟩ := List.mem_iff_getElem?.1 hc
    rw [List.getElem?_drop] at hk
    have := hget j (j + k) b c hb hk (by omega)
    simp; omega
  calc rb.filter (·.view < b.view) = (rb.take j ++ rb.drop j).filter (·.view < b.view) := by rw [← e]
    _ = rb.take j := by rw [List.filter_append, h1, h2, List.append_nil]

open Verif.Audit in
theorem auditRegAt_spec {log : List Txn} {bs : List Audit.Batch} (h : Good log bs) (pool : List (Option Req)) {i : Nat}
    {b : Audit.Batch} (hb : bs[i]? = some b) {r : List String} (hr : b.nodeReg = some r) :
    auditRegAt log pool i = some r := by
  have hlt : i < log.length := by rw [h.len]; exact (List.getElem?_eq_some_iff.1 hb).1
  have ht : log[i]? = some log[i] := List.getElem?_eq_getElem hlt
  have hs := (h.says i _ b ht hb).reg
  rw [hr] at hs
  unfold auditRegAt
  cases hf : log[i].nodeReg with
  | none => rw [follow_none ht hf] at hs; cases hs
  | some f =>
    cases f with
    | here v =>
      rw [follow_here ht hf] at hs
      rw [ht, Option.bind_some, hf]
      exact hs
    | back n =>
      obtain ⟨h1, h2, u, hu, hfu⟩ := follow_back ht hf hs
      rw [ht, Option.bind_some, hf]
      simp [Audit.behind, h2, hu, hfu]

theorem key_sset_one (k : Nat) (v : List String) (x : Nat) (r : List String) : x ∈ Dict.keys (sset k v [(x, r)]) := by
  unfold sset
  split
  · next h => simp only at h; subst h; simp [Dict.keys]
  · split <;> simp [Dict.keys]

open Verif.Audit (Txn Good follow_none follow_back) in
/-- **C66 (partial).** A node which restarts reads from the audit ledger the view of the last batch, the registry
after it, and the registries at the beginning of that view and of the view before it: the same as a node which did
not restart has. Missing: histories in which two consecutive views with batches have the same primaries, see
`C66_wrong_view`, and those whose first batch changes the registry, see `C66_first_batch`. -/
theorem C66_reload_partial (ops : List Audit.Op) (hh : Spec.Audit.History ⟨[], []⟩ ops) (reg : List String)
    (rb : List Batch) (hr : Recorded reg (Spec.Audit.audited (Spec.Audit.live ops).done) rb) (hne : rb ≠ [])
    (hc : PrimariesChange (Spec.Audit.audited (Spec.Audit.live ops).done)) (pool : List (Option Req))
    (hp : ∀ b, (Spec.Audit.audited (Spec.Audit.live ops).done)[0]? = some b → b.frozen.has 0 = false ∧
      ∃ l, b.ledgers.get? 0 = some l ∧ poolReg pool (some l.size) = reg) :
    ∃ L, load (Audit.run ops).committed pool = some L ∧ L.view = lastView rb ∧ L.current = registry reg rb ∧
      (∀ e ∈ L.atBegin, e.2 = atBeginning reg rb e.1) ∧ L.view ∈ L.atBegin.keys ∧
      ∀ b ∈ rb, b.view < L.view → (∀ c ∈ rb, c.view < L.view → c.view ≤ b.view) → b.view ∈ L.atBegin.keys := by
  have h := (auditInv ops hh).restart.good
  have e : Good (Audit.run ops).committed (Spec.Audit.audited (Spec.Audit.live ops).done) := by
    simpa [Audit.State.log, Audit.start, Spec.Audit.Live.step, Spec.Audit.audited] using h
  revert e hr hc hp
  generalize (Audit.run ops).committed = log
  generalize Spec.Audit.audited (Spec.Audit.live ops).done = bs
  intro hr hc hp hg
  have hlen : log.length = rb.length := by rw [hg.len, hr.len]
  have hpos : 0 < rb.length := List.length_pos_iff.2 hne
  -- views and registries of the positions
  have hview : ∀ k : Nat, (log[k]?).map Txn.viewNo = (rb[k]?).map Batch.view := by
    intro k
    by_cases hk : k < rb.length
    · have h1 : log[k]? = some (log[k]'(by omega)) := List.getElem?_eq_getElem _
      have h2 : bs[k]? = some (bs[k]'(by rw [← hg.len]; omega)) := List.getElem?_eq_getElem _
      have h3 : rb[k]? = some (rb[k]'hk) := List.getElem?_eq_getElem _
      rw [h1, h3]
      simp only [Option.map_some]
      rw [(hg.says k _ _ h1 h2).view, hr.view k _ _ h2 h3]
    · rw [List.getElem?_eq_none (by omega), List.getElem?_eq_none (by omega)]; rfl
  have hreg : ∀ k : Nat, k < rb.length → auditRegAt log pool k = some (registry reg (rb.take (k + 1))) := by
    intro k hk
    have h2 : bs[k]? = some (bs[k]'(by rw [← hg.len]; omega)) := List.getElem?_eq_getElem _
    exact auditRegAt_spec hg pool h2 (hr.reg k _ h2)
  have hpool : poolRegAt log pool 0 = some reg := by
    have h1 : log[0]? = some (log[0]'(by omega)) := List.getElem?_eq_getElem _
    have h2 : bs[0]? = some (bs[0]'(by rw [← hg.len]; omega)) := List.getElem?_eq_getElem _
    obtain ⟨hf, l, hl, hpl⟩ := hp _ h2
    unfold poolRegAt
    rw [h1, Option.bind_some, (hg.says 0 _ _ h1 h2).sizes 0 (by decide) hf, hl]
    simp [hpl]
  -- the registry before the first transaction of a view
  have hbefore : ∀ (i : Nat) b, rb[i]? = some b →
      (firstInView log b.view i).1 ≤ i ∧
      (log[(firstInView log b.view i).1]?).map Txn.viewNo = some b.view ∧
      regBefore log pool (firstInView log b.view i) = some (atBeginning reg rb b.view) ∧
      ((firstInView log b.view i).2 = none → (firstInView log b.view i).1 = 0) ∧
      ∀ p, (firstInView log b.view i).2 = some p → p < i ∧ p + 1 = (firstInView log b.view i).1 ∧
        ∃ a, rb[p]? = some a ∧ a.view < b.view := by
    intro i b hb
    have hil := (List.getElem?_eq_some_iff.1 hb).1
    obtain ⟨h1, h2, h3⟩ := firstInView_spec hg hc i (view := b.view) (by rw [hview, hb]; rfl)
    generalize hx : firstInView log b.view i = x at h1 h2 h3
    have hxv := h2 x.1 (Nat.le_refl _) h1
    have hxb : rb[x.1]? = some (rb[x.1]'(by omega)) := List.getElem?_eq_getElem _
    have hxe : (rb[x.1]'(by omega)).view = b.view := by
      rw [hview, hxb] at hxv; simpa using hxv
    refine ⟨h1, hxv, ?_, ?_, ?_⟩
    · rcases h3 with ⟨h0, hn⟩ | ⟨h0, hn, hne⟩
      · unfold regBefore
        rw [hn]
        simp only [h0]
        rw [hpool, ← hxe, atBeginning_take hr.sorted hxb (Or.inl h0), h0]
        rfl
      · unfold regBefore
        rw [hn]
        simp only
        have hpl : x.1 - 1 < rb.length := by omega
        rw [hreg _ hpl, Nat.sub_add_cancel h0, ← hxe, atBeginning_take hr.sorted hxb]
        right
        have hpb : rb[x.1 - 1]? = some (rb[x.1 - 1]'hpl) := List.getElem?_eq_getElem _
        refine ⟨_, hpb, ?_⟩
        rw [hview, hpb] at hne
        intro heq; exact hne (by simp [heq, hxe])
    · intro hn
      rcases h3 with ⟨h0, _⟩ | ⟨_, hn', _⟩
      · exact h0
      · rw [hn'] at hn; cases hn
    · intro p hpn
      rcases h3 with ⟨_, hn⟩ | ⟨h0, hn, hne⟩
      · rw [hn] at hpn; cases hpn
      · rw [hn] at hpn; cases hpn
        have hpl : x.1 - 1 < rb.length := by omega
        have hpb : rb[x.1 - 1]? = some (rb[x.1 - 1]'hpl) := List.getElem?_eq_getElem _
        refine ⟨by omega, by omega, _, hpb, ?_⟩
        rw [hview, hpb] at hne
        have hle : (rb[x.1 - 1]'hpl).view ≤ (rb[x.1]'(by omega)).view :=
          List.pairwise_iff_getElem.1 hr.sorted _ _ _ _ (by omega)
        have : (rb[x.1 - 1]'hpl).view ≠ b.view := fun h => hne (by simp [h])
        omega
  -- the last batch
  obtain ⟨b, hb⟩ : ∃ b, rb[rb.length - 1]? = some b := ⟨_, List.getElem?_eq_getElem (by omega)⟩
  have hlast : rb.getLast? = some b := by rw [List.getLast?_eq_getElem?]; exact hb
  have hlv : lastView rb = b.view := by simp [lastView, hlast]
  obtain ⟨t, ht⟩ : ∃ t, log[log.length - 1]? = some t := ⟨_, List.getElem?_eq_getElem (by omega)⟩
  have htl : log.getLast? = some t := by rw [List.getLast?_eq_getElem?]; exact ht
  have htv : t.viewNo = b.view := by
    have := hview (rb.length - 1)
    rw [hb, ← hlen, ht] at this; simpa using this
  have hcur : loadCurrent log pool = some (registry reg rb) := by
    have h1 := hreg (rb.length - 1) (by omega)
    rw [Nat.sub_add_cancel hpos, List.take_length] at h1
    have h2 : bs[log.length - 1]? = some (bs[log.length - 1]'(by rw [← hg.len]; omega)) := List.getElem?_eq_getElem _
    have h3 := hr.reg _ _ h2
    have h4 := (hg.says _ t _ ht h2).reg
    rw [h3] at h4
    rw [← hlen] at h1
    unfold auditRegAt at h1
    unfold loadCurrent
    rw [ht, Option.bind_some] at h1
    rw [htl, Option.bind_some]
    cases hf : t.nodeReg with
    | none => rw [follow_none ht hf] at h4; cases h4
    | some f =>
      rw [hf] at h1
      cases f with
      | here v => exact h1
      | back n =>
        obtain ⟨_, h6, u, hu, hfu⟩ := follow_back ht hf h4
        simp only [Audit.behind, h6, if_true, hu, Option.bind_some, hfu] at h1 ⊢
        exact h1
  obtain ⟨c1, c2, c3, c4, c5⟩ := hbefore _ b hb
  unfold load
  rw [htl]
  simp only [htv]
  rw [hlen]
  generalize hx : firstInView log b.view (rb.length - 1) = x at c1 c2 c3 c4 c5
  rw [hcur, c2, c3]
  simp only
  have hfirst : ∀ c ∈ rb, c.view < b.view → ∃ k : Nat, rb[k]? = some c := by
    intro c hc' _; exact List.mem_iff_getElem?.1 hc'
  have hmono : ∀ (k m : Nat) x y, rb[k]? = some x → rb[m]? = some y → k ≤ m → x.view ≤ y.view := by
    intro k m x y hx hy hkm
    by_cases he : k = m
    · subst he; rw [hx] at hy; cases hy; exact Nat.le_refl _
    · obtain ⟨h1, rfl⟩ := List.getElem?_eq_some_iff.1 hx
      obtain ⟨h2, rfl⟩ := List.getElem?_eq_some_iff.1 hy
      exact List.pairwise_iff_getElem.1 hr.sorted k m h1 h2 (by omega)
  have hxb : rb[x.1]? = some (rb[x.1]'(by omega)) := List.getElem?_eq_getElem _
  have hxe : (rb[x.1]'(by omega)).view = b.view := by rw [hview, hxb] at c2; simpa using c2
  by_cases h0 : b.view = 0
  · rw [if_pos h0]
    refine ⟨_, rfl, hlv.symm, rfl, by simp, by simp [Dict.keys], ?_⟩
    intro c _ hlt
    simp only [h0] at hlt
    omega
  · rw [if_neg h0]
    cases hx2 : x.2 with
    | none =>
      have hx0 := c4 hx2
      refine ⟨_, rfl, hlv.symm, rfl, ?_, ?_, ?_⟩
      · intro y hy
        rcases mem_sset hy with rfl | hy
        · show atBeginning reg rb b.view = atBeginning reg rb 0
          rw [← hxe, atBeginning_take hr.sorted hxb (Or.inl hx0), hx0]
          unfold atBeginning
          rw [List.filter_eq_nil_iff.2 (by simp)]
          rfl
        · simp at hy; subst hy; rfl
      · exact key_sset_one _ _ _ _
      · intro c hc' hlt _
        obtain ⟨k, hk⟩ := List.mem_iff_getElem?.1 hc'
        have := hmono x.1 k _ c hxb hk (by omega)
        simp only at hlt
        omega
    | some p =>
      obtain ⟨p1, p2, a, pa, p3⟩ := c5 p hx2
      obtain ⟨d1, d2, d3, d4, d5⟩ := hbefore p a pa
      have hpv : (log[p]?).map Txn.viewNo = some a.view := by rw [hview, pa]; rfl
      simp only [hpv, Option.getD_some, d2, d3]
      refine ⟨_, rfl, hlv.symm, rfl, ?_, ?_, ?_⟩
      · intro y hy
        rcases mem_sset hy with rfl | hy
        · rfl
        · simp at hy; subst hy; rfl
      · exact key_sset_one _ _ _ _
      · intro c hc' hlt hmax
        have hac : a.view ≤ c.view := hmax a (List.mem_of_getElem? pa) p3
        obtain ⟨k, hk⟩ := List.mem_iff_getElem?.1 hc'
        have hca : c.view ≤ a.view := by
          by_cases hkp : k ≤ p
          · exact hmono k p c a hk pa hkp
          · have := hmono x.1 k _ c hxb hk (by omega)
            simp only at hlt
            omega
        have : c.view = a.view := by omega
        rw [this]
        exact List.mem_map.2 ⟨_, mem_sset_self _ _ _, rfl⟩

/-- A batch of the domain ledger, the pool ledger having `pool` transactions. -/
def viewBatch (view pp : Nat) (prim reg : List String) (pool size : Nat) : Audit.Batch :=
  ⟨1, view, none, pp, "d", prim, some reg, true, [(0, ⟨pool, "p", 0, "ps"⟩), (1, ⟨size, "r", 1, "s"⟩)], []⟩

/-- A batch of the pool ledger, which has `pool` transactions after it. -/
def poolBatch (view pp : Nat) (prim reg : List String) (pool : Nat) : Audit.Batch :=
  ⟨0, view, none, pp, "d", prim, some reg, true, [(0, ⟨pool, "p", 1, "ps"⟩)], []⟩

theorem viewBatch_follows (v p : Nat) (q r : List String) (m n v' p' : Nat) (q' r' : List String) (n' : Nat)
    (h : n ≤ n') : Spec.Audit.Follows (viewBatch v p q r m n) (viewBatch v' p' q' r' m n') := by
  refine ⟨?_, fun _ h => h⟩
  intro lid a b ha hb
  simp only [viewBatch, Dict.get?_cons, Dict.get?_nil] at ha hb
  split at ha
  · next h => subst h; simp at hb; cases ha; subst hb; exact ⟨Nat.le_refl _, fun _ => rfl⟩
  · next h0 =>
    rw [if_neg h0] at hb
    split at ha
    · next h1 => rw [if_pos h1] at hb; cases ha; cases hb; exact ⟨h, fun _ => rfl⟩
    · cases ha

/-- Three batches in views 0, 0 and 1. -/
def reloadOps : List Audit.Op :=
  [.apply (viewBatch 0 1 ["A"] ["A", "B"] 2 1), .apply (viewBatch 0 2 ["A"] ["A", "B", "C"] 2 2), .commit, .commit,
   .apply (viewBatch 1 1 ["B"] ["A", "B", "C"] 2 3), .commit]

/-- Their changes of the registry. -/
def reloadBatches : List Batch := [⟨[], 0⟩, ⟨[⟨"C", some true⟩], 0⟩, ⟨[], 1⟩]

/-- The pool ledger: two nodes, something else, one more node. -/
def reloadPool : List (Option Req) := [some ⟨"A", some true⟩, some ⟨"B", some true⟩, none, some ⟨"C", some true⟩]

example : Spec.Audit.History ⟨[], []⟩ reloadOps ∧
    Recorded ["A", "B"] (Spec.Audit.audited (Spec.Audit.live reloadOps).done) reloadBatches ∧
    PrimariesChange (Spec.Audit.audited (Spec.Audit.live reloadOps).done) ∧
    load (Audit.run reloadOps).committed reloadPool =
      some ⟨["A", "B", "C"], 1, [(0, ["A", "B"]), (1, ["A", "B", "C"])]⟩ := by
  refine ⟨?_, ⟨rfl, ?_, ?_, by simp [reloadBatches]⟩, ?_, by decide +kernel⟩
  · refine ⟨⟨by simp [viewBatch, Dict.keys], by simp [viewBatch, Dict.keys], by simp [Spec.Audit.audited]⟩,
      ⟨by simp [viewBatch, Dict.keys], by simp [viewBatch, Dict.keys], ?_⟩, trivial, trivial,
      ⟨by simp [viewBatch, Dict.keys], by simp [viewBatch, Dict.keys], ?_⟩, trivial, trivial⟩
    · intro a ha
      have : a = viewBatch 0 1 ["A"] ["A", "B"] 2 1 := by
        simpa [Spec.Audit.Live.step, Spec.Audit.audited, viewBatch] using ha.symm
      subst this; exact viewBatch_follows _ _ _ _ _ _ _ _ _ _ _ (by omega)
    · intro a ha
      have : a = viewBatch 0 2 ["A"] ["A", "B", "C"] 2 2 := by
        simpa [Spec.Audit.Live.step, Spec.Audit.audited, viewBatch] using ha.symm
      subst this; exact viewBatch_follows _ _ _ _ _ _ _ _ _ _ _ (by omega)
  · intro k b c hb hc
    match k with
    | 0 | 1 | 2 => cases hb; cases hc; rfl
    | k + 3 => simp [reloadBatches] at hc
  · intro k b hb
    match k with
    | 0 | 1 | 2 => cases hb; rfl
    | k + 3 =>
      have : (Spec.Audit.audited (Spec.Audit.live reloadOps).done).length = 3 := rfl
      rw [List.getElem?_eq_none (by omega)] at hb; cases hb
  · intro k a b ha hb
    match k with
    | 0 => cases ha; cases hb; simp [viewBatch]
    | 1 => cases ha; cases hb; simp [viewBatch]
    | k + 2 =>
      have : (Spec.Audit.audited (Spec.Audit.live reloadOps).done).length = 3 := rfl
      rw [List.getElem?_eq_none (by omega)] at hb; cases hb

/-- Two batches, the second four views later with the same primaries: four nodes, so the primaries came round. The
first batch changed the registry. -/
def roundOps : List Audit.Op :=
  [.apply (viewBatch 0 1 ["A"] ["A", "B", "C", "D"] 4 1), .commit,
   .apply (viewBatch 4 1 ["A"] ["A", "B", "C", "D"] 4 2), .commit]

/-- **C66 fails, view.** The search for the first transaction of the last view follows the distance of the primaries
past the beginning of the view: after the restart the registry takes view 0 for the current one although the last
batch is of view 4. -/
theorem C66_wrong_view : Spec.Audit.History ⟨[], []⟩ roundOps ∧
    Recorded ["A", "B", "C", "D"] (Spec.Audit.audited (Spec.Audit.live roundOps).done) [⟨[], 0⟩, ⟨[], 4⟩] ∧
    (load (Audit.run roundOps).committed
      [some ⟨"A", some true⟩, some ⟨"B", some true⟩, some ⟨"C", some true⟩, some ⟨"D", some true⟩]) =
      some ⟨["A", "B", "C", "D"], 0, [(0, ["A", "B", "C", "D"])]⟩ := by
  refine ⟨?_, ⟨rfl, ?_, ?_, by simp⟩, by decide +kernel⟩
  · refine ⟨⟨by simp [viewBatch, Dict.keys], by simp [viewBatch, Dict.keys], by simp [Spec.Audit.audited]⟩, trivial,
      ⟨by simp [viewBatch, Dict.keys], by simp [viewBatch, Dict.keys], ?_⟩, trivial, trivial⟩
    intro a ha
    have : a = viewBatch 0 1 ["A"] ["A", "B", "C", "D"] 4 1 := by
      simpa [Spec.Audit.Live.step, Spec.Audit.audited, viewBatch] using ha.symm
    subst this; exact viewBatch_follows _ _ _ _ _ _ _ _ _ _ _ (by omega)
  · intro k b c hb hc
    match k with
    | 0 | 1 => cases hb; cases hc; rfl
    | k + 2 => simp at hc
  · intro k b hb
    match k with
    | 0 | 1 => cases hb; rfl
    | k + 2 =>
      have : (Spec.Audit.audited (Spec.Audit.live roundOps).done).length = 2 := rfl
      rw [List.getElem?_eq_none (by omega)] at hb; cases hb

/-- One batch, the first of all, which adds a node. -/
def firstOps : List Audit.Op := [.apply (poolBatch 0 1 ["A"] ["A", "B", "C", "D", "E"] 5), .commit]

/-- **C66 fails, first batch.** The size of the pool ledger in the first audit transaction is the one after its batch.
If that batch adds a node, a node which restarts takes the new node for a member at the beginning of the view; one
which does not restart does not. -/
theorem C66_first_batch : Spec.Audit.History ⟨[], []⟩ firstOps ∧
    Recorded ["A", "B", "C", "D"] (Spec.Audit.audited (Spec.Audit.live firstOps).done) [⟨[⟨"E", some true⟩], 0⟩] ∧
    PrimariesChange (Spec.Audit.audited (Spec.Audit.live firstOps).done) ∧
    (load (Audit.run firstOps).committed
      [some ⟨"A", some true⟩, some ⟨"B", some true⟩, some ⟨"C", some true⟩, some ⟨"D", some true⟩,
       some ⟨"E", some true⟩]).map (·.atBegin) = some [(0, ["A", "B", "C", "D", "E"])] ∧
    (run ["A", "B", "C", "D"] [.apply [⟨"E", some true⟩] 0, .commit 0]).atCom = [(0, ["A", "B", "C", "D"])] := by
  refine ⟨?_, ⟨rfl, ?_, ?_, by simp⟩, ?_, by decide +kernel, by decide⟩
  · exact ⟨⟨by simp [poolBatch, Dict.keys], by simp [poolBatch, Dict.keys], by simp [Spec.Audit.audited]⟩, trivial,
      trivial⟩
  · intro k b c hb hc
    match k with
    | 0 => cases hb; cases hc; rfl
    | k + 1 => simp at hc
  · intro k b hb
    match k with
    | 0 => cases hb; rfl
    | k + 1 =>
      have : (Spec.Audit.audited (Spec.Audit.live firstOps).done).length = 1 := rfl
      rw [List.getElem?_eq_none (by omega)] at hb; cases hb
  · intro k a b ha hb
    have : (Spec.Audit.audited (Spec.Audit.live firstOps).done).length = 1 := rfl
    rw [List.getElem?_eq_none (by omega)] at hb; cases hb

end Verif.Props
