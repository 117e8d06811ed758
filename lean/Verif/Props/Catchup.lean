import Verif.Proofs.CatchupHonest
import Verif.Model.CatchupReqs
import Verif.Proofs.Count
import Verif.Props.PyInt
/-!
# Catchup: what is appended, who is blamed, what is requested (C31, C32, C33, C65)

`D` is the log the pool agreed on: its length and its root are the target of the
catchup. `logInputs` are the strings hashed while that log was built.
-/
namespace Verif.Props
open Verif.Catchup Verif.Merkle

section
variable {τ : Type} (E : Env τ)

/-! ## C31 -/

theorem foldl_prefix (f : Nat → τ → τ) : ∀ (txns l : List τ),
    l <+: txns.foldl (fun l t => l ++ [f (l.length + 1) t]) l
  | [], _ => List.prefix_refl _
  | _ :: txns, l => (List.prefix_append l _).trans (foldl_prefix f txns _)

theorem processLoop_prefix : ∀ (m : Nat) (t : Till) (txns : List (Int × τ)) (s : State τ) (done : Nat),
    txns.length = m → s.ledger <+: (processLoop E s t txns done).1.ledger := by
  intro m
  induction m using Nat.strongRecOn with
  | ind m ih =>
    intro t txns s done hm
    rw [processLoop.eq_def]
    split
    · exact List.prefix_refl _
    · rename_i n x rest
      split
      · exact List.prefix_refl _
      · split
        · exact List.prefix_refl _
        · simp only
          split
          · exact List.prefix_refl _
          · split
            · split
              · exact List.prefix_refl _
              · split
                · exact foldl_prefix _ _ _
                · rename_i checked _ _ _ added _ hne
                  refine List.IsPrefix.trans ?_ (ih (((n, x) :: rest).drop checked.length).length
                    (by rw [List.length_drop, ← hm]; simp only [List.length_cons]; omega) t _ _ _ rfl)
                  exact foldl_prefix _ _ _
            · exact List.prefix_refl _

/-- **C31** (append only). Whatever happens, catchup only appends to the ledger. -/
theorem C31_append_only (s : State τ) (e : Event τ) : s.ledger <+: (s.step E e).ledger := by
  cases e with
  | start till =>
    cases till with
    | none => exact List.prefix_refl _
    | some t =>
      simp only [State.step, State.start]
      split <;> exact List.prefix_refl _
  | rep r frm =>
    simp only [State.step]
    rcases processRep_cases (E := E) s r frm with ⟨w, h⟩ | ⟨t, ns, M, done, s', o, _, _, _, _, _, hq, h⟩
    · rw [h]; exact List.prefix_refl _
    · have hp := processLoop_prefix E _ t (M.drop done) (s.noted r frm) done rfl
      rw [hq] at hp
      rcases h with ⟨_, _, h⟩ | ⟨_, _, _, h⟩ | ⟨_, _, _, h⟩ <;> rw [h] <;> exact hp

/-- One reply: either nothing is appended or the ledger is part of the agreed log. -/
theorem step_safe {E : Env τ} (hE : E.Sound) {d : Nat} (hd : ∀ x, (E.H x).length = d) {s : State τ} (h : SInv E s)
    {e : Event τ} (hc : e.Canonical E) {t : Till} (ht : (s.step E e).till = some t) {D : List Bytes}
    (hD : D.length = t.finalSize) (hroot : Spec.mth E.H D = t.finalHash)
    (hfill : ∀ n x, E.ser x ∈ D → E.fill n x = x) :
    (∃ x, (s.step E e).hashed = s.hashed ++ x) ∧
    ((s.step E e).ledger = s.ledger ∨ Good E D (s.step E e)) := by
  cases e with
  | start till =>
    have : (s.step E (.start till)).ledger = s.ledger ∧ (s.step E (.start till)).hashed = s.hashed := by
      cases till with
      | none => exact ⟨rfl, rfl⟩
      | some t =>
        simp only [State.step, State.start]
        split <;> exact ⟨rfl, rfl⟩
    exact ⟨⟨[], by rw [this.2]; simp⟩, .inl this.1⟩
  | rep r frm =>
    simp only [State.step] at ht ⊢
    rcases processRep_cases (E := E) s r frm with ⟨w, h1⟩ | ⟨t', ns, M, done, s', o, _, ht', hn, hne, hM, hq, h1⟩
    · rw [h1]; exact ⟨⟨[], by simp⟩, .inl rfl⟩
    · obtain ⟨_, hso, _⟩ := interesting_spec _ _ hne
      have hiv := interval_of_interesting hE hc hn _ hne
      have hk : Kept (E := E) (s.noted r frm) :=
        kept_add (s := { s with waiting := s.waiting.filter (· ≠ frm) }) h.kept hiv frm
      have hms : Sorted M := by rw [hM]; exact merge_sorted h.sorted hso
      have hf := processLoop_fields (E := E) _ t' (M.drop done) (s.noted r frm) done rfl
      rw [hq] at hf
      have htt : t' = t := by
        have e1 : s'.till = s.till := hf.2.2.1
        rw [ht'] at e1
        rcases h1 with ⟨_, _, h1⟩ | ⟨_, _, _, h1⟩ | ⟨_, _, _, h1⟩ <;> rw [h1] at ht
        · rw [e1] at ht; injection ht
        · simp only [State.finish] at ht; rw [e1] at ht; injection ht
        · simp only at ht; rw [e1] at ht; injection ht
      subst htt
      have key := processLoop_safe hd hD hroot hfill _ (M.drop done) (s.noted r frm) done rfl (sorted_drop_le hms _) hk
      rw [hq] at key
      rcases h1 with ⟨_, _, h1⟩ | ⟨_, _, _, h1⟩ | ⟨_, _, _, h1⟩ <;> rw [h1] <;> exact key.2

/-- While catchup is in progress either the target size is not reached or the ledger
is part of the agreed log. -/
theorem progress_inv {E : Env τ} (hE : E.Sound) {d : Nat} (hd : ∀ x, (E.H x).length = d) (L : List τ)
    (es : List (Event τ)) (hc : ∀ e ∈ es, e.Canonical E) (t : Till) (D : List Bytes)
    (hD : D.length = t.finalSize) (hroot : Spec.mth E.H D = t.finalHash)
    (hfill : ∀ n x, E.ser x ∈ D → E.fill n x = x) :
    let s := (State.run E { ledger := L } es)
    SInv E s ∧ (s.working = true → s.till = some t → s.ledger.length < t.finalSize ∨ Good E D s) := by
  induction es using snoc_induction with
  | nil =>
    refine ⟨⟨?_, ?_⟩, ?_⟩
    · intro e he; simp [State.run] at he
    · simp [State.run]
    · intro h; simp [State.run] at h
  | snoc es e ih =>
    have ih := ih (fun e he => hc e (List.mem_append_left _ he))
    have hce := hc e (by simp)
    simp only [State.run, List.foldl_append, List.foldl_cons, List.foldl_nil] at ih ⊢
    generalize List.foldl (fun s e => State.step E s e) { ledger := L } es = s at *
    refine ⟨ih.1.step hE hce, ?_⟩
    intro hw ht
    have hs := step_safe hE hd ih.1 hce ht hD hroot hfill
    rcases hs.2 with h | h
    · cases e with
      | start till =>
        left
        cases till with
        | none => simp [State.step, State.start, State.finish] at hw
        | some t' =>
          simp only [State.step, State.start] at hw ht ⊢
          split at hw
          · simp [State.finish] at hw
          · rename_i hlt
            rw [if_neg hlt] at ht ⊢
            simp only at ht
            injection ht with ht
            subst ht
            simp only at hlt ⊢
            omega
      | rep r frm =>
        have hw2 : s.working = true ∧ s.till = some t := by
          simp only [State.step] at hw ht
          rcases processRep_cases (E := E) s r frm with ⟨w, h1⟩ | ⟨t', ns, M, done, s', o, hw', ht', hn, hne, hM, hq, h1⟩
          · rw [h1] at hw ht; exact ⟨hw, ht⟩
          · have hf := processLoop_fields (E := E) _ t' (M.drop done) (s.noted r frm) done rfl
            rw [hq] at hf
            have e1 : s'.till = s.till := hf.2.2.1
            refine ⟨hw', ?_⟩
            rcases h1 with ⟨_, _, h1⟩ | ⟨_, _, _, h1⟩ | ⟨_, _, _, h1⟩ <;> rw [h1] at ht
            · rw [← e1]; exact ht
            · rw [← e1]; exact ht
            · rw [← e1]; exact ht
        rcases ih.2 hw2.1 hw2.2 with h1 | h1
        · left; rw [h]; exact h1
        · right
          obtain ⟨x, hx⟩ := hs.1
          rcases h1 with h1 | h1
          · left; rw [h]; exact h1
          · right
            rw [hx]
            apply collision_mono' h1
            · intro z hz; exact List.mem_append_left _ hz
            · intro z hz
              simp only [List.mem_append] at hz ⊢
              rcases hz with hz | hz
              · exact .inl (.inl hz)
              · exact .inr hz
    · exact .inr h

/-- **C31** (safety, partial). Consider any sequence of catchup targets and catchup replies
with arbitrary contents and from arbitrary senders, and one more event `e`. If
that event changes the ledger, the whole ledger is then a beginning of the log
`D` whose size and root are the current target, or strings hashed by this node
while checking replies collide with strings hashed by it or in building `D`.

Partial: the keys of the replies must be written the way Python writes integers
(`C31_corrupted` shows why). `hfill` says that the transactions of the log carry
their sequence numbers. -/
theorem C31_safe_partial (hE : E.Sound) {d : Nat} (hd : ∀ x, (E.H x).length = d) (L : List τ)
    (es : List (Event τ)) (e : Event τ) (hc : ∀ x ∈ es ++ [e], x.Canonical E) (t : Till) (D : List Bytes)
    (ht : (State.run E { ledger := L } (es ++ [e])).till = some t)
    (hD : D.length = t.finalSize) (hroot : Spec.mth E.H D = t.finalHash)
    (hfill : ∀ n x, E.ser x ∈ D → E.fill n x = x) :
    let s := State.run E { ledger := L } es
    let s' := State.run E { ledger := L } (es ++ [e])
    s'.ledger = s.ledger ∨ s'.ledger.map E.ser <+: D ∨
      Spec.Collision E.H s'.hashed (s'.hashed ++ Spec.logInputs E.H D) := by
  have h := progress_inv hE hd L es (fun e he => hc e (List.mem_append_left _ he)) t D hD hroot hfill
  have e1 : State.run E { ledger := L } (es ++ [e]) = (State.run E { ledger := L } es).step E e := by
    simp [State.run]
  rw [e1] at ht
  simp only [e1]
  have := step_safe hE hd h.1 (hc e (by simp)) ht hD hroot hfill
  rcases this.2 with h | h
  · exact .inl h
  · exact .inr h

/-- **C31** (completion, partial). If a reply completes the catchup, the ledger is then
exactly the log `D`, or a collision was hashed. Partial for the same reason. -/
theorem C31_complete_partial (hE : E.Sound) {d : Nat} (hd : ∀ x, (E.H x).length = d) (L : List τ)
    (es : List (Event τ)) (r : Rep τ) (frm : Name) (hc : ∀ x ∈ es ++ [.rep r frm], x.Canonical E)
    (t : Till) (D : List Bytes)
    (ht : (State.run E { ledger := L } es).till = some t)
    (hD : D.length = t.finalSize) (hroot : Spec.mth E.H D = t.finalHash)
    (hfill : ∀ n x, E.ser x ∈ D → E.fill n x = x)
    (hdone : (State.run E { ledger := L } (es ++ [.rep r frm])).completed ≠
      (State.run E { ledger := L } es).completed) :
    let s' := State.run E { ledger := L } (es ++ [.rep r frm])
    s'.ledger.map E.ser = D ∨ Spec.Collision E.H s'.hashed (s'.hashed ++ Spec.logInputs E.H D) := by
  have h := progress_inv hE hd L es (fun e he => hc e (List.mem_append_left _ he)) t D hD hroot hfill
  have e1 : State.run E { ledger := L } (es ++ [.rep r frm]) = (State.run E { ledger := L } es).step E (.rep r frm) := by
    simp [State.run]
  rw [e1] at hdone
  simp only [e1]
  simp only at h
  generalize State.run E { ledger := L } es = s at *
  have hcr := hc (.rep r frm) (by simp)
  have hcases := processRep_cases (E := E) s r frm
  have hfin : s.working = true ∧ (s.step E (.rep r frm)).till = some t ∧
      t.finalSize ≤ (s.step E (.rep r frm)).ledger.length := by
    simp only [State.step] at hdone ⊢
    rcases hcases with ⟨w, h1⟩ | ⟨t', ns, M, done, s', o, hw', ht', hn, hne, hM, hq, h1⟩
    · rw [h1] at hdone; exact absurd rfl hdone
    · have hf := processLoop_fields (E := E) _ t' (M.drop done) (s.noted r frm) done rfl
      rw [hq] at hf
      have e1 : s'.till = s.till := hf.2.2.1
      have e2 : s'.completed = s.completed := hf.2.2.2
      have htt : t' = t := by rw [ht] at ht'; injection ht' with ht'; exact ht'.symm
      rcases h1 with ⟨_, _, h1⟩ | ⟨_, _, hge, h1⟩ | ⟨_, _, _, h1⟩ <;> rw [h1] at hdone ⊢
      · exact absurd e2 hdone
      · refine ⟨hw', by simp only [State.finish]; rw [e1, ht], ?_⟩
        rw [← htt]; exact hge
      · exact absurd e2 hdone
  have hs := step_safe hE hd h.1 hcr hfin.2.1 hD hroot hfill
  have hgood : Good E D (s.step E (.rep r frm)) := by
    rcases hs.2 with h1 | h1
    · rcases h.2 hfin.1 ht with h2 | h2
      · have := hfin.2.2; rw [h1] at this; omega
      · obtain ⟨x, hx⟩ := hs.1
        rcases h2 with h2 | h2
        · left; rw [h1]; exact h2
        · right
          rw [hx]
          apply collision_mono' h2
          · intro z hz; exact List.mem_append_left _ hz
          · intro z hz
            simp only [List.mem_append] at hz ⊢
            rcases hz with hz | hz
            · exact .inl (.inl hz)
            · exact .inr hz
    · exact h1
  rcases hgood with h1 | h1
  · left
    exact h1.eq_of_length (by
      have h2 := h1.length_le
      have h3 := hfin.2.2
      rw [List.length_map] at h2 ⊢
      omega)
  · exact .inr h1

end

/-- The environment of the examples: transactions are byte strings, kept as they are,
and sequence numbers are decimal text. -/
def pyEnv (H : Bytes → Bytes) : Env Bytes where
  H := H
  ser := id
  transform := some
  fill := fun _ x => x
  toInt := Py.int
  toStr := Py.str

theorem pyEnv_sound (H : Bytes → Bytes) : (pyEnv H).Sound := Py.int_str

/-- Replies with ordinary keys meet the hypothesis of the two theorems, whatever they hold. -/
example (H : Bytes → Bytes) (x y : Bytes) (p : List Bytes) (frm : Name) :
    (Event.rep ⟨[("1".toList, x), ("12".toList, y)], p⟩ frm).Canonical (pyEnv H) := by
  intro e he
  simp only [List.mem_cons, List.not_mem_nil, or_false] at he
  rcases he with rfl | rfl
  · exact ⟨1, show "1".toList = Py.str 1 by decide⟩
  · exact ⟨12, show "12".toList = Py.str 12 by decide⟩

/-- **C31 fails** for replies with keys such as `"02"`. For any hash function and any
transactions, a node catching up to the log `[a, b]` that receives from one node the
two replies `{"3": b}` and `{"1": a, "02": evil, "3": b}`, both with an empty proof,
appends `evil` in place of `b` and reports that catchup is complete. -/
theorem C31_corrupted (H : Bytes → Bytes) (a b evil : Bytes) (frm : Name) :
    let s := State.run (pyEnv H) { ledger := [] }
      [.start (some ⟨0, 2, Spec.mth H [a, b]⟩),
       .rep ⟨[("3".toList, b)], []⟩ frm,
       .rep ⟨[("1".toList, a), ("02".toList, evil), ("3".toList, b)], []⟩ frm]
    s.ledger = [a, evil] ∧ s.completed = 1 ∧ s.working = false := by
  have h1 : Py.int ['1'] = some 1 := by decide
  have h2 : Py.int ['0', '2'] = some 2 := by decide
  have h3 : Py.int ['3'] = some 3 := by decide
  have g1 : Py.str 1 = ['1'] := by decide
  have g2 : Py.str 2 = ['2'] := by decide
  have g3 : Py.str 3 = ['3'] := by decide
  have hn1 : numbered (pyEnv H) [("3".toList, b)] = some [(3, b)] := by
    simp [numbered, pyEnv, h3]
  have hn : numbered (pyEnv H) [("1".toList, a), ("02".toList, evil), ("3".toList, b)] =
      some [(1, a), (2, evil), (3, b)] := by
    simp [numbered, pyEnv, h1, h2, h3]
  have hi1 : interesting 0 [((3 : Int), b)] = [(3, b)] := by
    have : [((3 : Int), b)].mergeSort le = [(3, b)] :=
      List.mergeSort_of_pairwise (by simp)
    simp [interesting, this, consecutive]
  have hi : interesting 0 [((1 : Int), a), (2, evil), (3, b)] = [(1, a), (2, evil), (3, b)] := by
    have : [((1 : Int), a), (2, evil), (3, b)].mergeSort le = [(1, a), (2, evil), (3, b)] :=
      List.mergeSort_of_pairwise (by simp [le])
    simp [interesting, this, consecutive]
  have hm1 : mergeTxns [] [((3 : Int), b)] = [(3, b)] := by simp [mergeTxns]
  have hm : mergeTxns [((3 : Int), b)] [((1 : Int), a), (2, evil), (3, b)] = [(1, a), (2, evil), (3, b)] := by
    simp [mergeTxns, List.merge, le]
  have hl1 (s : State Bytes) (t : Till) (h : s.ledger = []) :
      processLoop (pyEnv H) s t [((3 : Int), b)] 0 = (s, .ok 0) := by
    rw [processLoop.eq_def]
    simp [h]
  have hp1 : State.processRep (pyEnv H) { ledger := [], working := true, till := some ⟨0, 2, Spec.mth H [a, b]⟩ }
      ⟨[("3".toList, b)], []⟩ frm =
      ({ ledger := [], working := true, till := some ⟨0, 2, Spec.mth H [a, b]⟩,
         replies := [(frm, [⟨[("3".toList, b)], []⟩])], pending := [((3 : Int), b)] }, none) := by
    unfold State.processRep
    simp only [hn1, hi1, List.length_nil]
    simp [processTxns, hm1, Dict.get?, Dict.set, hl1]
  obtain ⟨bl, rs, hs, hl⟩ : ∃ bl rs hs, processLoop (pyEnv H)
      { ledger := [], working := true, till := some ⟨0, 2, Spec.mth H [a, b]⟩, pending := [((3 : Int), b)],
        replies := [(frm, [⟨[(['3'], b)], []⟩, ⟨[(['1'], a), (['0', '2'], evil), (['3'], b)], []⟩])] }
      ⟨0, 2, Spec.mth H [a, b]⟩ [((1 : Int), a), (2, evil), (3, b)] 0 =
      ({ ledger := [a, evil], working := true, till := some ⟨0, 2, Spec.mth H [a, b]⟩, pending := [((3 : Int), b)],
         blacklisted := bl, replies := rs, hashed := hs }, .ok 3) := by
    rw [processLoop.eq_def]
    simp [findReply, Rep.holds, pyEnv, g1, g2, g3, Dict.has, toCheck, tempLeaves, verified,
      verifyTreeConsistency, addTxns, removeReply, Dict.get?, Dict.set]
    rw [processLoop.eq_def]
    simp [findReply, Rep.holds, g1, g2, g3, Dict.has, toCheck, tempLeaves, verified,
      verifyTreeConsistency, addTxns, removeReply, Dict.get?, Dict.set]
  have hp : ∃ s, State.processRep (pyEnv H)
      { ledger := [], working := true, till := some ⟨0, 2, Spec.mth H [a, b]⟩,
        replies := [(frm, [⟨[("3".toList, b)], []⟩])], pending := [((3 : Int), b)] }
      ⟨[("1".toList, a), ("02".toList, evil), ("3".toList, b)], []⟩ frm = (s, none) ∧
      s.ledger = [a, evil] ∧ s.completed = 1 ∧ s.working = false := by
    unfold State.processRep
    simp only [hn, hi, List.length_nil]
    simp [processTxns, hm, Dict.get?, Dict.set, hl, State.finish]
  obtain ⟨s', e, r1, r2, r3⟩ := hp
  simp only [State.run, List.foldl_cons, List.foldl_nil, State.step, State.start]
  simp only [List.length_nil, show ¬ (0 ≥ 2) by decide, if_false]
  simp only [hp1, e]
  exact ⟨r1, r2, r3⟩

end Verif.Props
