import Verif.Props.Entry
/-!
# C83, continued: lengths, and requests for consistency proofs
-/
namespace Verif.Props

open Verif (Val ascii)
open Verif.Entry

/-- Every text waiting on a stack is short enough and decodes. -/
def Bounded (cfg : Cfg) (s : St) : Prop :=
  (∀ e ∈ s.nodeRx, e.1.length ≤ cfg.maxLen ∧ cfg.utf8 e.1 = true ∧ cfg.utf8 e.2 = true) ∧
  ∀ e ∈ s.clientRx, e.1.length ≤ cfg.maxLen ∧ cfg.utf8 e.1 = true ∧ cfg.utf8 e.2 = true

theorem Bounded.step {cfg : Cfg} {s : St} (h : Bounded cfg s) (e : Ev) : Bounded cfg (Entry.step cfg s e) := by
  cases e with
  | arrive c m i =>
    show Bounded cfg (arrive cfg c s m i)
    unfold arrive
    split
    · exact h
    · split
      · exact h
      · rename_i hi
        have hi' : cfg.utf8 i = true := by simpa using hi
        split
        · rename_i hm
          simp only [Bool.and_eq_true, decide_eq_true_eq] at hm
          split
          · refine ⟨h.1, ?_⟩
            intro e he
            rcases List.mem_append.1 he with he | he
            · exact h.2 e he
            · rw [List.mem_singleton.1 he]; exact ⟨hm.1, hm.2, hi'⟩
          · refine ⟨?_, h.2⟩
            intro e he
            rcases List.mem_append.1 he with he | he
            · exact h.1 e he
            · rw [List.mem_singleton.1 he]; exact ⟨hm.1, hm.2, hi'⟩
        · split <;> exact h
  | nodeOne env =>
    unfold Entry.step
    simp only
    split
    · exact h
    · split
      · exact h
      · rename_i m i r hx
        have hk := (rx_kept cfg env { s with nodeRx := r } m i).1
        refine ⟨?_, ?_⟩
        · intro e he
          rw [hk.1] at he
          exact h.1 e (by rw [hx]; exact List.mem_cons_of_mem _ he)
        · intro e he
          rw [hk.2] at he
          exact h.2 e he
  | clientOne env =>
    unfold Entry.step
    simp only
    split
    · exact h
    · split
      · exact h
      · rename_i m i r hx
        have hk := (rx_kept cfg env { s with clientRx := r } m i).2
        refine ⟨?_, ?_⟩
        · intro e he
          rw [hk.1] at he
          exact h.1 e he
        · intro e he
          rw [hk.2] at he
          exact h.2 e (by rw [hx]; exact List.mem_cons_of_mem _ he)
  | route raises =>
    show Bounded cfg (if s.stopped then s else routeOne raises s)
    unfold routeOne
    split
    · exact h
    · split <;> exact h

theorem Bounded.foldl {cfg : Cfg} : ∀ (l : List Ev) (s : St), Bounded cfg s → Bounded cfg (l.foldl (Entry.step cfg) s)
  | [], _, h => h
  | e :: l, s, h => Bounded.foldl l _ (h.step e)

/-- **C83, lengths.** In every history, no text over the limit, and none that does not decode, is
ever handed to the code behind the sockets. -/
theorem C83_bounded (cfg : Cfg) (l : List Ev) :
    (∀ e ∈ (run cfg l).nodeRx, e.1.length ≤ cfg.maxLen ∧ cfg.utf8 e.1 = true) ∧
    ∀ e ∈ (run cfg l).clientRx, e.1.length ≤ cfg.maxLen ∧ cfg.utf8 e.1 = true := by
  have h := Bounded.foldl (cfg := cfg) l {} ⟨by simp, by simp⟩
  exact ⟨fun e he => ⟨(h.1 e he).1, (h.1 e he).2.1⟩, fun e he => ⟨(h.2 e he).1, (h.2 e he).2.1⟩⟩

/-- **C83, lengths, answers.** A client whose message is too long gets a REJECT. -/
theorem C83_too_long (cfg : Cfg) (s : St) (t i : Bytes) (hs : s.stopped = false) (hi : cfg.utf8 i = true)
    (ht : cfg.maxLen < t.length) :
    step cfg s (.arrive true t i) = { s with rejects := s.rejects ++ [i] } := by
  have : ¬ t.length ≤ cfg.maxLen := by omega
  simp [step, arrive, hs, hi, this]

theorem eqInt_float (F : Facts) (b : UInt64) (n : Nat) : eqInt F (.float b) n = F.floatEq b n := rfl

/-- **C83, requests for consistency proofs.** Exactly which of them stop the node that gets them:
those whose ledger id is a float equal to the id of a ledger, for a range inside that ledger. -/
theorem C83_proof_request_stops (cfg : Cfg) (F : Facts) (s : St) (p b : Items) (frm : Bytes) (r : List (NodeMsg × Bytes))
    (hs : s.stopped = false) (hq : s.nodeIn = (⟨MESSAGE_REQUEST, b⟩, frm) :: r)
    (ht : Spec.Field b (ascii "msg_type") (.str (ascii "CONSISTENCY_PROOF")))
    (hp : Spec.Field b (ascii "params") (.dict p))
    (hu : ∀ x, ∀ l ∈ F.ledgers, ∀ m ∈ F.ledgers, F.floatEq x l.1 = true → F.floatEq x m.1 = true → l = m) :
    (step cfg s (.route (handlerRaises F))).stopped = true ↔
      ∃ x l, Spec.Field p (ascii "ledgerId") (.float x) ∧ l ∈ F.ledgers ∧ F.floatEq x l.1 = true ∧
        ∃ u v m n, Spec.Field p (ascii "seqNoStart") u ∧ Spec.Field p (ascii "seqNoEnd") v ∧
          posInt u = some m ∧ posInt v = some n ∧ m ≤ n ∧ n ≤ l.2 := by
  have h1 : Entry.get b (ascii "msg_type") = .str (ascii "CONSISTENCY_PROOF") := by
    rw [Entry.get, (lookup_some_iff _ _ _).2 ht]; rfl
  have h2 : Entry.get b (ascii "params") = .dict p := by
    rw [Entry.get, (lookup_some_iff _ _ _).2 hp]; rfl
  have e : (step cfg s (.route (handlerRaises F))).stopped = askedRaises F ⟨MESSAGE_REQUEST, b⟩ := by
    simp [step, hs, routeOne, hq, handlerRaises]
    intro h; exact absurd (by decide +kernel) h
  rw [e]
  unfold askedRaises
  rw [h2]
  have d1 : (Val.str (ascii "CONSISTENCY_PROOF") == .str LEDGER_STATUS) = false := by decide +kernel
  simp only [h1, d1, Bool.false_eq_true, if_false, beq_self_eq_true, if_true]
  have hpos : ∀ k m, posInt (Entry.get p k) = some m ↔ ∃ v, Spec.Field p k v ∧ posInt v = some m := by
    intro k m
    unfold Entry.get
    cases h : lookup p k with
    | none =>
      simp only [Option.getD_none, posInt, reduceCtorEq, false_iff]
      rintro ⟨v, hv, _⟩
      rw [← lookup_some_iff, h] at hv; cases hv
    | some v =>
      rw [Option.getD_some]
      constructor
      · intro h2; exact ⟨v, (lookup_some_iff _ _ _).1 h, h2⟩
      · rintro ⟨w, hw, h2⟩
        rw [← lookup_some_iff, h] at hw
        cases hw
        exact h2
  have hfl : ∀ k, isFloat (Entry.get p k) = true ↔ ∃ x, Spec.Field p k (.float x) := by
    intro k
    unfold Entry.get
    cases h : lookup p k with
    | none =>
      simp only [Option.getD_none, isFloat, Bool.false_eq_true, false_iff]
      rintro ⟨v, hv⟩
      rw [← lookup_some_iff, h] at hv; cases hv
    | some v =>
      rw [Option.getD_some]
      constructor
      · intro h2
        cases v <;> simp [isFloat] at h2
        exact ⟨_, (lookup_some_iff _ _ _).1 h⟩
      · rintro ⟨x, hx⟩
        rw [← lookup_some_iff, h] at hx
        cases hx
        rfl
  unfold consistencyProofRaises
  constructor
  · intro h
    split at h
    · cases h
    · rename_i l hl
      split at h
      · rename_i m n hm hn
        simp only [Bool.and_eq_true, decide_eq_true_eq] at h
        obtain ⟨x, hx⟩ := (hfl _).1 h.2
        have hg : Entry.get p (ascii "ledgerId") = .float x := by
          rw [Entry.get, (lookup_some_iff _ _ _).2 hx]; rfl
        have h3 := List.find?_some hl
        rw [hg, eqInt_float] at h3
        obtain ⟨u, hu1, hu2⟩ := (hpos _ _).1 hm
        obtain ⟨v, hv1, hv2⟩ := (hpos _ _).1 hn
        exact ⟨x, l, hx, List.mem_of_find?_eq_some hl, h3, u, v, m, n, hu1, hv1, hu2, hv2, h.1.1, h.1.2⟩
      · cases h
  · rintro ⟨x, l, hx, hl, he, u, v, m, n, hu1, hv1, hu2, hv2, h3, h4⟩
    have hg : Entry.get p (ascii "ledgerId") = .float x := by
      rw [Entry.get, (lookup_some_iff _ _ _).2 hx]; rfl
    have hm := (hpos _ _).2 ⟨u, hu1, hu2⟩
    have hn := (hpos _ _).2 ⟨v, hv1, hv2⟩
    cases hf : F.ledgers.find? (fun l => eqInt F (Entry.get p (ascii "ledgerId")) l.1) with
    | none =>
      have := List.find?_eq_none.1 hf l hl
      rw [hg, eqInt_float] at this
      exact absurd he this
    | some l' =>
      have h5 := List.find?_some hf
      rw [hg, eqInt_float] at h5
      have : l' = l := hu x l' (List.mem_of_find?_eq_some hf) l hl h5 he
      subst this
      rw [hm, hn]
      simp [h3, h4, hg, isFloat]

namespace EntryX

/-- Floats whose bits are the number. -/
def G : Facts := ⟨[(0, 4), (1, 9), (2, 1), (3, 5)], [0, 1], fun b n => b.toNat == n⟩

def askProof (start stop : Int) : Items := [(ascii "msg_type", .str (ascii "CONSISTENCY_PROOF")),
  (ascii "params", .dict [(ascii "ledgerId", .float 1), (ascii "seqNoStart", .int start), (ascii "seqNoEnd", .int stop)])]

/-- A range inside the ledger stops the node, one that ends beyond it does not. -/
example : (step cfg { nodeIn := [(⟨MESSAGE_REQUEST, askProof 3 9⟩, ascii "P")] } (.route (handlerRaises G))).stopped = true ∧
    (step cfg { nodeIn := [(⟨MESSAGE_REQUEST, askProof 3 10⟩, ascii "P")] } (.route (handlerRaises G))).stopped = false := by
  decide +kernel

/-- The hypotheses of `C83_proof_request_stops` hold for the request that stops the node. -/
example : (step cfg { nodeIn := [(⟨MESSAGE_REQUEST, askProof 3 9⟩, ascii "P")] } (.route (handlerRaises G))).stopped = true := by
  refine (C83_proof_request_stops cfg G _ [(ascii "ledgerId", .float 1), (ascii "seqNoStart", .int 3), (ascii "seqNoEnd", .int 9)]
    (askProof 3 9) (ascii "P") [] rfl rfl ((lookup_some_iff _ _ _).1 (by decide +kernel))
    ((lookup_some_iff _ _ _).1 (by decide +kernel)) ?_).2 ?_
  · intro x l hl m hm h1 h2
    have h1' : x.toNat = l.1 := by simpa [G] using h1
    have h2' : x.toNat = m.1 := by simpa [G] using h2
    simp only [G, List.mem_cons, List.not_mem_nil, or_false] at hl hm
    rcases hl with rfl | rfl | rfl | rfl <;> rcases hm with rfl | rfl | rfl | rfl <;> first | rfl | (simp at h1' h2'; omega)
  · exact ⟨1, (1, 9), (lookup_some_iff _ _ _).1 (by decide +kernel), by decide +kernel, by decide +kernel,
      .int 3, .int 9, 3, 9, (lookup_some_iff _ _ _).1 (by decide +kernel), (lookup_some_iff _ _ _).1 (by decide +kernel),
      by decide +kernel, by decide +kernel, by decide, by decide⟩

/-- A message over the limit of 100 bytes is rejected, and nothing is queued. -/
example : (run cfg [.arrive true (List.replicate 101 0x7b) (ascii "C")]).rejects = [ascii "C"] ∧
    (run cfg [.arrive true (List.replicate 101 0x7b) (ascii "C")]).clientRx = [] := by decide +kernel

end EntryX

end Verif.Props
