import Verif.Spec.Bls
import Verif.Proofs.Count
/-!
# C49: stored multi-signatures
-/
namespace Verif.Props
open Verif Verif.Bls Verif.Spec.Bls

theorem getCorrectAudit_eq {l : List AuditTxn} {n : Nat} {a : AuditTxn} (h : LastAudit l n a) : getCorrectAudit l n = some a := by
  obtain ⟨pre, post, rfl, ha, hp⟩ := h
  unfold getCorrectAudit
  rw [List.reverse_append, List.reverse_cons, List.append_assoc, List.find?_append]
  have : List.find? (fun t => t.ppSeqNo == n) post.reverse = none := by
    rw [List.find?_eq_none]
    intro t ht
    have := hp t (List.mem_reverse.1 ht)
    simpa using this
  rw [this]
  simp [ha]

theorem valueFor_iff (pp : PrePrepare) (a : AuditTxn) (lid : Nat) (v : Value) :
    valueFor pp a lid = some v ↔ IsValueOf pp a lid v := by
  unfold valueFor IsValueOf
  cases hs : a.stateRoots.get? lid with
  | none => simp
  | some x =>
    cases hl : a.ledgerRoots.get? lid with
    | none => simp
    | some y =>
      simp only [Option.some.injEq]
      constructor
      · rintro rfl; exact ⟨rfl, rfl, rfl, rfl, rfl⟩
      · rintro ⟨h1, h2, h3, h4, h5⟩
        cases v
        simp_all

/-- A signature that may be stored for a value. -/
def GoodSig (env : Env) (v : Value) (p s : Nat) : Prop :=
  (p = env.me ∧ s = env.sign v) ∨ ∃ k, env.keyOf v.poolRoot p = some k ∧ env.verify s v k = true

/-- Signatures stored for a batch. -/
structure GoodSigs (env : Env) (pp : PrePrepare) (a : AuditTxn) (sigs : Sigs) : Prop where
  senders : ∀ e ∈ sigs, (Dict.keys e.2).Nodup
  good : ∀ e ∈ sigs, ∀ p s, (p, s) ∈ e.2 → ∃ v, valueFor pp a e.1.id = some v ∧ GoodSig env v p s

theorem addSig_good {env : Env} {pp : PrePrepare} {a : AuditTxn} {sigs : Sigs} (h : GoodSigs env pp a sigs) (p : Nat)
    (e : LidKey × Nat) (he : ∃ v, valueFor pp a e.1.id = some v ∧ GoodSig env v p e.2) :
    GoodSigs env pp a (addSig p sigs e) := by
  have hold : (Dict.keys ((sigs.get? e.1).getD [])).Nodup ∧ ∀ q s, (q, s) ∈ (sigs.get? e.1).getD [] →
      ∃ v, valueFor pp a e.1.id = some v ∧ GoodSig env v q s := by
    cases hg : sigs.get? e.1 with
    | none => exact ⟨List.nodup_nil, fun q s hm => (by cases hm)⟩
    | some d =>
      have hm := Dict.mem_of_get? hg
      exact ⟨h.senders _ hm, h.good _ hm⟩
  constructor
  · intro x hx
    unfold addSig at hx
    rcases Dict.mem_set hx with hx | rfl
    · exact h.senders x hx
    · exact Dict.nodup_keys_set hold.1 _ _
  · intro x hx q s hm
    unfold addSig at hx
    rcases Dict.mem_set hx with hx | rfl
    · exact h.good x hx q s hm
    · rcases Dict.mem_set hm with hm | hm
      · exact hold.2 q s hm
      · injection hm with h1 h2
        subst h1; subst h2
        exact he

theorem addSigs_good {env : Env} {pp : PrePrepare} {a : AuditTxn} (p : Nat) (d : Dict LidKey Nat)
    (hd : ∀ e ∈ d, ∃ v, valueFor pp a e.1.id = some v ∧ GoodSig env v p e.2) :
    ∀ sigs : Sigs, GoodSigs env pp a sigs → GoodSigs env pp a (d.foldl (addSig p) sigs) := by
  induction d with
  | nil => intro sigs h; exact h
  | cons e r ih =>
    intro sigs h
    rw [List.foldl_cons]
    exact ih (fun x hx => hd x (List.mem_cons_of_mem _ hx)) _ (addSig_good h p e (hd e (List.mem_cons_self ..)))

theorem checkSig_good {env : Env} {pp : PrePrepare} {a : AuditTxn} {p : Nat} {e : LidKey × Nat} (h : checkSig env pp a p e = true) :
    ∃ v, valueFor pp a e.1.id = some v ∧ GoodSig env v p e.2 := by
  unfold checkSig at h
  split at h
  · cases h
  · next v hv =>
    refine ⟨v, hv, .inr ?_⟩
    unfold validateSignature at h
    split at h
    · cases h
    · next k hk => exact ⟨k, hk, h⟩

theorem ownSigs_good {env : Env} {pp : PrePrepare} {a : AuditTxn} : ∀ {lids : List Nat} {d : Dict LidKey Nat},
    ownSigs env pp a lids = some d → ∀ e ∈ d, ∃ v, valueFor pp a e.1.id = some v ∧ GoodSig env v env.me e.2 := by
  intro lids
  induction lids with
  | nil =>
    intro d h e he
    unfold ownSigs at h
    injection h with h
    subst h; cases he
  | cons l r ih =>
    intro d h e he
    unfold ownSigs at h
    split at h
    · next v d' hv hd' =>
      injection h with h
      subst h
      rcases List.mem_cons.1 he with rfl | he
      · exact ⟨v, hv, .inl ⟨rfl, rfl⟩⟩
      · exact ih hd' e he
    · cases h

/-- What holds of the stored signatures after a history. -/
def SigInv (env : Env) (h : List Event) (s : State) : Prop :=
  ∀ key sigs, s.allSignatures.get? key = some sigs → key.2 ≤ s.lastOrdered ∨
    ∀ pp a, Fixed h key.1 key.2 pp a → GoodSigs env pp a sigs

theorem fixed_mono {h h' : List Event} {v n : Nat} {pp : PrePrepare} {a : AuditTxn} (hf : Fixed (h ++ h') v n pp a) :
    Fixed h v n pp a := fun e he => hf e (List.mem_append_left _ he)

/-- Taking in checked signatures. -/
theorem processCommit_inv {env : Env} {h : List Event} {s : State} (hi : SigInv env h s) (e : Event) {l : List AuditTxn}
    {pp : PrePrepare} (hab : about e = some (l, pp)) (p : Nat) (sigs : Option (Dict LidKey Nat))
    (hs : pp.ppSeqNo ≤ s.lastOrdered ∨ ∀ a, LastAudit l pp.ppSeqNo a → ∀ d, sigs = some d →
      ∀ e ∈ d, ∃ v, valueFor pp a e.1.id = some v ∧ GoodSig env v p e.2) :
    SigInv env (h ++ [e]) (processCommit s (pp.viewNo, pp.ppSeqNo) p sigs) := by
  intro key sg hg
  unfold processCommit at hg ⊢
  cases sigs with
  | none => exact (hi key sg hg).imp id (fun x pp' a' hf => x pp' a' (fixed_mono hf))
  | some d =>
    simp only [Dict.get?_set] at hg ⊢
    split at hg
    · next hk =>
      injection hg with hg
      subst hg; subst hk
      rcases hs with hs | hs
      · exact .inl hs
      · have hold : pp.ppSeqNo ≤ s.lastOrdered ∨ ∀ pp' a, Fixed h pp.viewNo pp.ppSeqNo pp' a →
            GoodSigs env pp' a ((s.allSignatures.get? (pp.viewNo, pp.ppSeqNo)).getD []) := by
          cases hg' : s.allSignatures.get? (pp.viewNo, pp.ppSeqNo) with
          | none => exact .inr (fun _ _ _ => ⟨fun _ he => (by cases he), fun _ he => (by cases he)⟩)
          | some old => exact hi _ _ hg'
        rcases hold with hold | hold
        · exact .inl hold
        · right
          intro pp' a hf
          obtain ⟨rfl, hla⟩ := hf e (by simp) l pp hab rfl rfl
          exact addSigs_good p d (hs a hla d rfl) _ (hold _ a (fixed_mono hf))
    · exact (hi key sg hg).imp id (fun x pp' a' hf => x pp' a' (fixed_mono hf))

theorem bls_inv_step {env : Env} {h : List Event} {s : State} (hi : SigInv env h s) (e : Event) :
    SigInv env (h ++ [e]) (Bls.step env s e) := by
  have keep : ∀ s' : State, s'.allSignatures = s.allSignatures → s.lastOrdered ≤ s'.lastOrdered → SigInv env (h ++ [e]) s' := by
    intro s' h1 h2 key sg hg
    rw [h1] at hg
    exact (hi key sg hg).imp (fun x => Nat.le_trans x h2) (fun x pp' a' hf => x pp' a' (fixed_mono hf))
  cases e with
  | commit l pp p sigs =>
    show SigInv env _ (onCommit env s l pp p sigs)
    unfold onCommit
    split
    · next hc =>
      refine processCommit_inv hi _ rfl p sigs ?_
      rw [Bool.or_eq_true] at hc
      rcases hc with hc | hc
      · left; unfold alreadyOrdered at hc; simpa using hc
      · right
        intro a ha d hd x hx
        subst hd
        unfold validateCommit at hc
        simp only [getCorrectAudit_eq ha] at hc
        exact checkSig_good (List.all_eq_true.1 hc x hx)
    · exact keep s rfl (Nat.le_refl _)
  | ownCommit l pp =>
    show SigInv env _ (onOwnCommit env s l pp)
    unfold onOwnCommit
    refine processCommit_inv hi _ rfl env.me _ (.inr ?_)
    intro a ha d hd x hx
    unfold updateCommit at hd
    split at hd
    · cases hd
    · simp only [getCorrectAudit_eq ha] at hd
      exact ownSigs_good hd x hx
  | order l pp =>
    show SigInv env _ (onOrder env s l pp)
    unfold onOrder
    split
    · exact keep s rfl (Nat.le_refl _)
    · next hn =>
      have hlt : s.lastOrdered ≤ pp.ppSeqNo := by unfold alreadyOrdered at hn; simp at hn; omega
      unfold processOrder
      split
      · exact keep _ rfl hlt
      · split
        · exact keep _ rfl hlt
        · split
          · exact keep _ rfl hlt
          · exact keep _ rfl hlt
  | prePrepare pp =>
    show SigInv env _ (onPrePrepare env s pp)
    unfold onPrePrepare
    split
    · exact keep _ rfl (Nat.le_refl _)
    · exact keep _ rfl (Nat.le_refl _)
  | share => exact keep _ rfl (Nat.le_refl _)
  | gc key =>
    intro k sg hg
    have hg' : Dict.get? (s.allSignatures.filter (fun e => !(decide (e.1.2 ≤ key.2)))) k = some sg := hg
    rw [Dict.get?_filter s.allSignatures (fun k => !(decide (k.2 ≤ key.2)))] at hg'
    split at hg'
    · exact (hi k sg hg').imp id (fun x pp' a' hf => x pp' a' (fixed_mono hf))
    · cases hg'
  | caughtUp n => exact keep _ rfl (Nat.le_max_left _ _)
  | pool n => exact keep _ rfl (Nat.le_refl _)

theorem bls_run_snoc (env : Env) (n : Nat) (h : List Event) (e : Event) :
    Bls.run env n (h ++ [e]) = Bls.step env (Bls.run env n h) e := by
  unfold Bls.run; rw [List.foldl_append]; rfl

theorem bls_inv (env : Env) (n : Nat) (h : List Event) : SigInv env h (Bls.run env n h) := by
  induction h using snoc_induction with
  | nil => intro key sg hg; cases hg
  | snoc h e ih => rw [bls_run_snoc]; exact bls_inv_step ih e

theorem calculateAll_mem {env : Env} {pp : PrePrepare} {a : AuditTxn} : ∀ {sigs : Sigs} {l : List MultiSig},
    calculateAll env pp a sigs = some l → ∀ m, m ∈ l ↔ ∃ e ∈ sigs, ∃ v, valueFor pp a e.1.id = some v ∧ m = single env v e.2 := by
  intro sigs
  induction sigs with
  | nil =>
    intro l h m
    unfold calculateAll at h
    injection h with h
    subst h; simp
  | cons x r ih =>
    intro l h m
    obtain ⟨lid, d⟩ := x
    unfold calculateAll at h
    split at h
    · next v l' hv hl' =>
      injection h with h
      subst h
      rw [List.mem_cons, ih hl']
      constructor
      · rintro (rfl | ⟨e, he, w⟩)
        · exact ⟨(lid, d), List.mem_cons_self .., v, hv, rfl⟩
        · exact ⟨e, List.mem_cons_of_mem _ he, w⟩
      · rintro ⟨e, he, v', hv', rfl⟩
        rcases List.mem_cons.1 he with rfl | he
        · left
          simp only at hv'
          rw [hv] at hv'; injection hv' with hv'; rw [hv']
        · exact .inr ⟨e, he, v', hv', rfl⟩
    · cases h

/-- The steps that save nothing of their own. -/
theorem savedLocal_step (env : Env) (s : State) (e : Event) :
    (Bls.step env s e).savedLocal = s.savedLocal ∨ ∃ l pp, e = .order l pp := by
  cases e with
  | commit l pp p sigs =>
    left
    show (onCommit env s l pp p sigs).savedLocal = _
    unfold onCommit
    split
    · unfold processCommit; cases sigs <;> rfl
    · rfl
  | ownCommit l pp =>
    left
    show (onOwnCommit env s l pp).savedLocal = _
    unfold onOwnCommit processCommit
    cases updateCommit env l pp <;> rfl
  | order l pp => exact .inr ⟨l, pp, rfl⟩
  | prePrepare pp =>
    left
    show (onPrePrepare env s pp).savedLocal = _
    unfold onPrePrepare
    split <;> rfl
  | share => exact .inl rfl
  | gc _ => exact .inl rfl
  | caughtUp _ => exact .inl rfl
  | pool _ => exact .inl rfl

/-- C49, the part that holds: every multi-signature a node calculates and saves is backed
by `n - f` nodes. Missing: the multi-signatures it saves from PRE-PREPAREs, for which
the claim is false, see `bls_shared_needs_no_quorum`. -/
theorem bls_local_backed_partial (env : Env) (n0 : Nat) (h : List Event) (hst : Steady h) (m : MultiSig) (n : Nat)
    (hm : (m, n) ∈ (Bls.run env n0 h).savedLocal) : Backed env n m := by
  induction h using snoc_induction with
  | nil => cases hm
  | snoc h e ih =>
    have hst' : Steady h := fun v k => by
      obtain ⟨pp, a, hf⟩ := hst v k
      exact ⟨pp, a, fixed_mono hf⟩
    have hinv := bls_inv env n0 h
    rw [bls_run_snoc] at hm
    rcases savedLocal_step env (Bls.run env n0 h) e with hs | ⟨l, pp, rfl⟩
    · rw [hs] at hm; exact ih hst' hm
    · have hm' : (m, n) ∈ (onOrder env (Bls.run env n0 h) l pp).savedLocal := hm
      unfold onOrder at hm'
      split at hm'
      · exact ih hst' hm'
      · next hno =>
        unfold processOrder at hm'
        split at hm'
        · exact ih hst' hm'
        · next sigs hsig =>
          split at hm'
          · exact ih hst' hm'
          · next ms hms =>
            split at hm'
            · unfold saveLocal at hm'
              simp only [List.mem_append, List.mem_map] at hm'
              rcases hm' with hm' | ⟨m', hmem, heq⟩
              · exact ih hst' hm'
              · injection heq with h1 h2
                subst h1; subst h2
                obtain ⟨pp', a, hf⟩ := hst pp.viewNo pp.ppSeqNo
                obtain ⟨rfl, hla⟩ := hf (.order l pp) (by simp) l pp rfl rfl rfl
                unfold multiSigsFor at hms
                simp only [getCorrectAudit_eq hla] at hms
                obtain ⟨x, hx, v, hv, rfl⟩ := (calculateAll_mem hms m').1 hmem
                unfold canCalculate at hsig
                split at hsig
                · cases hsig
                · next sigs' hg =>
                  split at hsig
                  · next hall =>
                    injection hsig with hsig
                    subst hsig
                    have hgood : GoodSigs env pp a sigs' := by
                      rcases hinv _ _ hg with hlo | hgd
                      · exfalso
                        apply hno
                        unfold alreadyOrdered
                        simpa using hlo
                      · exact hgd pp a (fixed_mono hf)
                    have hq := List.all_eq_true.1 hall x hx
                    refine ⟨x.2, rfl, hgood.senders x hx, ?_, rfl, ?_⟩
                    · unfold Quorum.isReached Quorums.ofN at hq
                      simpa using hq
                    · intro p s hps
                      obtain ⟨v', hv', hgs⟩ := hgood.good x hx p s hps
                      rw [hv] at hv'
                      injection hv' with hv'
                      subst hv'
                      exact hgs
                  · cases hsig
            · exact ih hst' hm'

/-! ## A case -/

private def bEnv : Env :=
  { me := 1, isMaster := true, canSign := true
    keyOf := fun _ p => if 1 ≤ p ∧ p ≤ 4 then some p else none
    sign := fun v => 1000 + v.stateRoot
    verify := fun s v k => s == 1000 * k + v.stateRoot
    verifyMulti := fun s v ks => s == (ks.map (fun k => 1000 * k + v.stateRoot)).sum
    aggregate := fun l => l.sum }
private def bPp : PrePrepare := ⟨0, 1, 1600000000, 77, []⟩
private def bLedger : List AuditTxn := [⟨1, [(1, 55)], [(1, 66)]⟩]
private def bSig (p : Nat) : Option (Dict LidKey Nat) := some [(⟨1, 0⟩, 1000 * p + 55)]
private def bHist : List Event :=
  [.prePrepare bPp, .ownCommit bLedger bPp, .commit bLedger bPp 2 (bSig 2), .commit bLedger bPp 9 (bSig 9),
   .commit bLedger bPp 3 (some [(⟨1, 0⟩, 3)]), .commit bLedger bPp 4 (bSig 4), .order bLedger bPp]

private theorem bHist_steady : Steady bHist := by
  intro v n
  refine ⟨bPp, ⟨1, [(1, 55)], [(1, 66)]⟩, ?_⟩
  intro e he l pp hab _ hn
  have hh : l = bLedger ∧ pp = bPp := by
    simp only [bHist, List.mem_cons, List.not_mem_nil, or_false] at he
    rcases he with rfl | rfl | rfl | rfl | rfl | rfl | rfl <;> simp [about] at hab <;> exact ⟨hab.1.symm, hab.2.symm⟩
  obtain ⟨rfl, rfl⟩ := hh
  refine ⟨rfl, [], [], rfl, hn, fun t ht => (by cases ht)⟩

/-- In a pool of four, three valid signatures, one of them the own, give a
multi-signature; one of a stranger and a wrong one are not used. -/
example : (Bls.run bEnv 4 bHist).savedLocal = [(⟨7165, [1, 2, 4], ⟨1, 55, 77, 66, 1600000000⟩⟩, 4)] := by
  decide +kernel

example : Backed bEnv 4 ⟨7165, [1, 2, 4], ⟨1, 55, 77, 66, 1600000000⟩⟩ :=
  bls_local_backed_partial bEnv 4 bHist bHist_steady _ _ (by decide +kernel)

/-! ## Multi-signatures from PRE-PREPAREs -/

/-- What is known of a multi-signature taken from a PRE-PREPARE: it verifies under the
keys of those of its participants that have one. -/
theorem bls_shared_checked (env : Env) (n0 : Nat) (h : List Event) (m : MultiSig)
    (hm : m ∈ (Bls.run env n0 h).savedShared) :
    m.participants ≠ [] ∧
    env.verifyMulti m.signature m.value (m.participants.filterMap (env.keyOf m.value.poolRoot)) = true := by
  induction h using snoc_induction with
  | nil => cases hm
  | snoc h e ih =>
    rw [bls_run_snoc] at hm
    have keep : (Bls.step env (Bls.run env n0 h) e).savedShared = (Bls.run env n0 h).savedShared ∨ ∃ pp, e = .prePrepare pp := by
      cases e with
      | commit l pp p sigs =>
        left
        show (onCommit env _ l pp p sigs).savedShared = _
        unfold onCommit
        split
        · unfold processCommit; cases sigs <;> rfl
        · rfl
      | ownCommit l pp =>
        left
        show (onOwnCommit env _ l pp).savedShared = _
        unfold onOwnCommit processCommit
        cases updateCommit env l pp <;> rfl
      | order l pp =>
        left
        show (onOrder env _ l pp).savedShared = _
        unfold onOrder
        split
        · rfl
        · unfold processOrder
          split
          · rfl
          · split
            · rfl
            · split <;> rfl
      | prePrepare pp => exact .inr ⟨pp, rfl⟩
      | share => exact .inl rfl
      | gc _ => exact .inl rfl
      | caughtUp _ => exact .inl rfl
      | pool _ => exact .inl rfl
    rcases keep with hk | ⟨pp, rfl⟩
    · rw [hk] at hm; exact ih hm
    · have hm' : m ∈ (onPrePrepare env (Bls.run env n0 h) pp).savedShared := hm
      unfold onPrePrepare at hm'
      split at hm'
      · next hc =>
        simp only [List.mem_append] at hm'
        rcases hm' with hm' | hm'
        · exact ih hm'
        · have hv := List.all_eq_true.1 (by rw [Bool.and_eq_true] at hc; exact hc.1) m hm'
          unfold validateMultiSig at hv
          rw [Bool.and_eq_true] at hv
          refine ⟨?_, hv.2⟩
          intro h0
          rw [h0] at hv
          simp at hv
      · exact ih hm'

/-- A PRE-PREPARE's multi-signature of one node is saved in a pool of four, in place of the
one of three nodes for the same state root, and it is not backed. -/
theorem bls_shared_needs_no_quorum :
    let m : MultiSig := ⟨3055, [3], ⟨1, 55, 77, 66, 1600000000⟩⟩
    let h := bHist ++ [.prePrepare ⟨0, 2, 1600000001, 77, [m]⟩]
    Steady h ∧ (Bls.run bEnv 4 bHist).store.get? 55 = some ⟨7165, [1, 2, 4], ⟨1, 55, 77, 66, 1600000000⟩⟩ ∧
    (Bls.run bEnv 4 h).store.get? 55 = some m ∧ ¬ Backed bEnv 4 m := by
  refine ⟨?_, by decide +kernel, by decide +kernel, ?_⟩
  · intro v n
    obtain ⟨pp, a, hf⟩ := bHist_steady v n
    refine ⟨pp, a, ?_⟩
    intro e he l pp' hab
    rcases List.mem_append.1 he with he | he
    · exact hf e he l pp' hab
    · rw [List.mem_singleton] at he
      subst he; cases hab
  · rintro ⟨sigs, hp, _, hlen, _⟩
    have : sigs.length = 1 := by
      have := congrArg List.length hp
      simpa using this.symm
    rw [this] at hlen
    exact absurd hlen (by decide)

/-! ## When a multi-signature is made -/

/-- The signatures of an honest COMMIT: one valid signature for each ledger of the audit
transaction, spelled in the usual way. -/
structure HonestSigs (env : Env) (pp : PrePrepare) (a : AuditTxn) (p : Nat) (d : Dict LidKey Nat) : Prop where
  lids : ∀ lid, lid ∈ Dict.keys d ↔ lid.spelling = 0 ∧ ∃ r, a.stateRoots.get? lid.id = some r
  valid : ∀ e ∈ d, checkSig env pp a p e = true

/-- After COMMITs of `senders`, each ledger has their signatures. -/
def FullSigs (a : AuditTxn) (senders : List Nat) (sigs : Sigs) : Prop :=
  (Dict.keys sigs).Nodup ∧
  (∀ k, k ∈ Dict.keys sigs → k.spelling = 0 ∧ ∃ r, a.stateRoots.get? k.id = some r) ∧
  ∀ p ∈ senders, ∀ lid r, a.stateRoots.get? lid = some r → ∃ d, sigs.get? ⟨lid, 0⟩ = some d ∧ p ∈ Dict.keys d

theorem addSigs_nodup (p : Nat) (d : Dict LidKey Nat) : ∀ (sigs : Sigs), (Dict.keys sigs).Nodup →
    (Dict.keys (d.foldl (addSig p) sigs)).Nodup := by
  induction d with
  | nil => intro sigs h; exact h
  | cons e r ih => intro sigs h; rw [List.foldl_cons]; exact ih _ (Dict.nodup_keys_set h _ _)

theorem addSigs_get (p : Nat) (d : Dict LidKey Nat) : ∀ (sigs : Sigs) (k : LidKey),
    (k ∈ Dict.keys (d.foldl (addSig p) sigs) ↔ k ∈ Dict.keys sigs ∨ k ∈ Dict.keys d) ∧
    (∀ o, sigs.get? k = some o → ∃ o', (d.foldl (addSig p) sigs).get? k = some o' ∧ ∀ q ∈ Dict.keys o, q ∈ Dict.keys o') ∧
    (k ∈ Dict.keys d → ∃ o', (d.foldl (addSig p) sigs).get? k = some o' ∧ p ∈ Dict.keys o') := by
  induction d with
  | nil => intro sigs k; exact ⟨by simp [Dict.keys], fun o ho => ⟨o, ho, fun q hq => hq⟩, fun h => (by cases h)⟩
  | cons e r ih =>
    intro sigs k
    rw [List.foldl_cons]
    obtain ⟨i1, i2, i3⟩ := ih (addSig p sigs e) k
    have hk : ∀ o, k = e.1 → (addSig p sigs e).get? k = some o → p ∈ Dict.keys o := by
      intro o hk ho
      unfold addSig at ho
      rw [Dict.get?_set, if_pos hk.symm] at ho
      injection ho with ho
      rw [← ho, Dict.mem_keys]
      exact ⟨e.2, by rw [Dict.get?_set, if_pos rfl]⟩
    have hself : (addSig p sigs e).get? e.1 = some (((sigs.get? e.1).getD []).set p e.2) := by
      unfold addSig; rw [Dict.get?_set, if_pos rfl]
    refine ⟨?_, ?_, ?_⟩
    · rw [i1]
      have h1 : k ∈ Dict.keys (addSig p sigs e) ↔ k ∈ Dict.keys sigs ∨ k = e.1 := by
        unfold addSig
        simp only [Dict.mem_keys, Dict.get?_set]
        constructor
        · rintro ⟨v, hv⟩
          split at hv
          · next hk => exact .inr hk.symm
          · exact .inl ⟨v, hv⟩
        · rintro (⟨v, hv⟩ | rfl)
          · by_cases hk : e.1 = k
            · exact ⟨_, if_pos hk⟩
            · exact ⟨v, by rw [if_neg hk]; exact hv⟩
          · exact ⟨_, if_pos rfl⟩
      rw [h1]
      show _ ↔ _ ∨ k ∈ List.map Prod.fst (e :: r)
      rw [List.map_cons, List.mem_cons, or_assoc]
      exact Iff.rfl
    · intro o ho
      have : ∃ o1, (addSig p sigs e).get? k = some o1 ∧ ∀ q ∈ Dict.keys o, q ∈ Dict.keys o1 := by
        by_cases hke : e.1 = k
        · subst hke
          refine ⟨_, hself, fun q hq => ?_⟩
          rw [ho, Option.getD_some, Dict.mem_keys, Dict.get?_set]
          obtain ⟨v, hv⟩ := (Dict.mem_keys o q).1 hq
          by_cases hpq : p = q
          · exact ⟨_, if_pos hpq⟩
          · exact ⟨v, by rw [if_neg hpq]; exact hv⟩
        · refine ⟨o, ?_, fun q hq => hq⟩
          unfold addSig
          rw [Dict.get?_set, if_neg hke]
          exact ho
      obtain ⟨o1, h1, h2⟩ := this
      obtain ⟨o2, h3, h4⟩ := i2 o1 h1
      exact ⟨o2, h3, fun q hq => h4 q (h2 q hq)⟩
    · intro hmem
      rcases List.mem_cons.1 (show k ∈ e.1 :: List.map Prod.fst r from hmem) with hke | hmem
      · subst hke
        obtain ⟨o2, h3, h4⟩ := i2 _ hself
        exact ⟨o2, h3, h4 p (hk _ rfl hself)⟩
      · exact i3 hmem

/-- The COMMITs of honest senders, one after the other. -/
def takeIn (env : Env) (l : List AuditTxn) (pp : PrePrepare) (s : State) (c : Nat × Dict LidKey Nat) : State :=
  onCommit env s l pp c.1 (some c.2)

theorem takeIn_full (env : Env) (l : List AuditTxn) (pp : PrePrepare) (a : AuditTxn) (ha : LastAudit l pp.ppSeqNo a) (s : State)
    (hnew : s.allSignatures.get? (pp.viewNo, pp.ppSeqNo) = none)
    (commits : List (Nat × Dict LidKey Nat)) (hc : ∀ c ∈ commits, HonestSigs env pp a c.1 c.2) :
    (commits.foldl (takeIn env l pp) s).n = s.n ∧ (commits.foldl (takeIn env l pp) s).lastOrdered = s.lastOrdered ∧
    FullSigs a (commits.map Prod.fst)
      (((commits.foldl (takeIn env l pp) s).allSignatures.get? (pp.viewNo, pp.ppSeqNo)).getD []) ∧
    (commits ≠ [] → ((commits.foldl (takeIn env l pp) s).allSignatures.get? (pp.viewNo, pp.ppSeqNo)).isSome = true) := by
  induction commits using snoc_induction with
  | nil =>
    refine ⟨rfl, rfl, ?_, fun h => absurd rfl h⟩
    rw [List.foldl_nil, hnew]
    exact ⟨List.nodup_nil, fun k hk => (by cases hk), fun p hp => (by cases hp)⟩
  | snoc cs c ih =>
    obtain ⟨h1, h2, h3, _⟩ := ih (fun x hx => hc x (List.mem_append_left _ hx))
    rw [List.foldl_append, List.foldl_cons, List.foldl_nil]
    have hcc := hc c (by simp)
    have hv : validateCommit env l pp c.1 (some c.2) = true := by
      unfold validateCommit
      simp only [getCorrectAudit_eq ha]
      exact List.all_eq_true.2 hcc.valid
    have ht : takeIn env l pp (cs.foldl (takeIn env l pp) s) c =
        processCommit (cs.foldl (takeIn env l pp) s) (pp.viewNo, pp.ppSeqNo) c.1 (some c.2) := by
      unfold takeIn onCommit
      rw [hv, Bool.or_true, if_pos rfl]
    rw [ht]
    unfold processCommit
    refine ⟨h1, h2, ?_, fun _ => by simp [Dict.get?_set]⟩
    simp only [Dict.get?_set, if_true, Option.getD_some]
    refine ⟨addSigs_nodup _ _ _ h3.1, ?_, ?_⟩
    · intro k hk
      rcases (addSigs_get c.1 c.2 _ k).1.1 hk with hk | hk
      · exact h3.2.1 k hk
      · exact (hcc.lids k).1 hk
    · intro p hp lid r hr
      rw [List.map_append, List.mem_append] at hp
      rcases hp with hp | hp
      · obtain ⟨d, hd, hpd⟩ := h3.2.2 p hp lid r hr
        obtain ⟨o, ho, hq⟩ := (addSigs_get c.1 c.2 _ ⟨lid, 0⟩).2.1 d hd
        exact ⟨o, ho, hq p hpd⟩
      · have : p = c.1 := by simpa using hp
        subst this
        exact (addSigs_get c.1 c.2 _ ⟨lid, 0⟩).2.2 ((hcc.lids ⟨lid, 0⟩).2 ⟨rfl, r, hr⟩)

theorem calculateAll_some {env : Env} {pp : PrePrepare} {a : AuditTxn} : ∀ {sigs : Sigs},
    (∀ k ∈ Dict.keys sigs, ∃ v, valueFor pp a k.id = some v) → ∃ l, calculateAll env pp a sigs = some l := by
  intro sigs
  induction sigs with
  | nil => intro _; exact ⟨[], rfl⟩
  | cons x r ih =>
    intro h
    obtain ⟨lid, d⟩ := x
    obtain ⟨v, hv⟩ := h lid (List.mem_cons_self ..)
    obtain ⟨l, hl⟩ := ih (fun k hk => h k (List.mem_cons_of_mem _ hk))
    refine ⟨single env v d :: l, ?_⟩
    unfold calculateAll
    rw [hv, hl]

/-- If the COMMITs taken in for a batch before it is ordered are those of at least
`n - f` honest nodes, a multi-signature with all of them is saved for each state root of
the batch. -/
theorem bls_multisig_made (env : Env) (hmaster : env.isMaster = true) (s : State) (l : List AuditTxn) (pp : PrePrepare) (a : AuditTxn)
    (ha : LastAudit l pp.ppSeqNo a) (hroots : ∀ lid r, a.stateRoots.get? lid = some r → ∃ t, a.ledgerRoots.get? lid = some t)
    (hnew : s.allSignatures.get? (pp.viewNo, pp.ppSeqNo) = none) (hlo : s.lastOrdered < pp.ppSeqNo)
    (commits : List (Nat × Dict LidKey Nat)) (hc : ∀ c ∈ commits, HonestSigs env pp a c.1 c.2)
    (hnd : (commits.map Prod.fst).Nodup) (hpos : commits ≠ []) (hq : s.n - getMaxFailures s.n ≤ commits.length)
    (lid r : Nat) (hr : a.stateRoots.get? lid = some r) :
    ∃ m, (m, s.n) ∈ (onOrder env (commits.foldl (takeIn env l pp) s) l pp).savedLocal ∧ IsValueOf pp a lid m.value ∧
      m.value.stateRoot = r ∧ ∀ c ∈ commits, c.1 ∈ m.participants := by
  obtain ⟨h1, h2, h3, h4⟩ := takeIn_full env l pp a ha s hnew commits hc
  have hs4 := h4 hpos
  cases hg : (commits.foldl (takeIn env l pp) s).allSignatures.get? (pp.viewNo, pp.ppSeqNo) with
  | none => rw [hg] at hs4; cases hs4
  | some sigs =>
    rw [hg, Option.getD_some] at h3
    have hval : ∀ k ∈ Dict.keys sigs, ∃ v, valueFor pp a k.id = some v := by
      intro k hk
      obtain ⟨_, r', hr'⟩ := h3.2.1 k hk
      obtain ⟨t, ht⟩ := hroots _ _ hr'
      exact ⟨⟨k.id, r', pp.poolRoot, t, pp.time⟩, (valueFor_iff _ _ _ _).2 ⟨rfl, rfl, rfl, hr', ht⟩⟩
    obtain ⟨ms, hms⟩ := calculateAll_some (env := env) hval
    have key : ∀ e ∈ sigs, sigs.get? e.1 = some e.2 → s.n - getMaxFailures s.n ≤ e.2.length := by
      intro e he hge
      obtain ⟨hsp, r', hr'⟩ := h3.2.1 e.1 (List.mem_map_of_mem he)
      have hsub : ∀ p ∈ commits.map Prod.fst, p ∈ Dict.keys e.2 := by
        intro p hp
        obtain ⟨d, hd, hpd⟩ := h3.2.2 p hp e.1.id r' hr'
        have : (⟨e.1.id, 0⟩ : LidKey) = e.1 := by cases hx : e.1; rw [hx] at hsp; simp at hsp; simp [hsp]
        rw [this, hge] at hd
        injection hd with hd
        rw [hd]; exact hpd
      have := length_le_of_subset hnd hsub
      rw [List.length_map] at this
      unfold Dict.keys at this
      rw [List.length_map] at this
      omega
    have hget : ∀ e ∈ sigs, sigs.get? e.1 = some e.2 := fun e he => Dict.get?_of_mem h3.1 he
    obtain ⟨c0, hc0⟩ : ∃ c, c ∈ commits := List.exists_mem_of_ne_nil _ hpos
    obtain ⟨d, hd, _⟩ := h3.2.2 c0.1 (List.mem_map_of_mem hc0) lid r hr
    obtain ⟨v, hv⟩ := hval ⟨lid, 0⟩ ((Dict.mem_keys _ _).2 ⟨d, hd⟩)
    have hiv := (valueFor_iff _ _ _ _).1 hv
    refine ⟨single env v d, ?_, hiv, ?_, ?_⟩
    · unfold onOrder
      have hno : alreadyOrdered (commits.foldl (takeIn env l pp) s) pp = false := by
        unfold alreadyOrdered
        rw [h2]
        simpa using hlo
      rw [hno]
      simp only [Bool.false_eq_true, if_false]
      unfold processOrder canCalculate
      simp only [hg]
      rw [if_pos]
      · simp only [multiSigsFor, getCorrectAudit_eq ha, hms, hmaster, if_true, saveLocal]
        rw [List.mem_append]
        right
        rw [List.mem_map]
        exact ⟨single env v d, (calculateAll_mem hms _).2 ⟨(⟨lid, 0⟩, d), Dict.mem_of_get? hd, v, hv, rfl⟩, by rw [h1]⟩
      · rw [List.all_eq_true]
        intro e he
        have := key e he (hget e he)
        unfold Quorum.isReached Quorums.ofN
        rw [h1]
        simpa using this
    · have := hiv.2.2.2.1
      rw [hr] at this
      injection this with this
      exact this.symm
    · intro c hcm
      obtain ⟨d', hd', hp⟩ := h3.2.2 c.1 (List.mem_map_of_mem hcm) lid r hr
      rw [hd] at hd'
      injection hd' with hd'
      subst hd'
      exact hp

/-- The hypotheses are met by three COMMITs in a pool of four. -/
example : ∃ m, (m, 4) ∈ (onOrder bEnv ([(1, [(⟨1, 0⟩, 1055)]), (2, [(⟨1, 0⟩, 2055)]), (4, [(⟨1, 0⟩, 4055)])].foldl
    (takeIn bEnv bLedger bPp) { n := 4 }) bLedger bPp).savedLocal ∧ IsValueOf bPp ⟨1, [(1, 55)], [(1, 66)]⟩ 1 m.value ∧
    m.value.stateRoot = 55 ∧ ∀ c ∈ ([(1, [(⟨1, 0⟩, 1055)]), (2, [(⟨1, 0⟩, 2055)]), (4, [(⟨1, 0⟩, 4055)])] :
      List (Nat × Dict LidKey Nat)), c.1 ∈ m.participants := by
  refine bls_multisig_made bEnv rfl { n := 4 } bLedger bPp ⟨1, [(1, 55)], [(1, 66)]⟩ ⟨[], [], rfl, rfl, fun t ht => (by cases ht)⟩ ?_ rfl
    (by decide) _ ?_ (by decide) (by simp) (by decide) 1 55 rfl
  · intro lid r h
    simp only [Dict.get?_cons, Dict.get?_nil] at h ⊢
    split at h
    · next hl => exact ⟨66, if_pos hl⟩
    · cases h
  · have hl : ∀ (x : Nat) (lid : LidKey), lid ∈ Dict.keys [((⟨1, 0⟩ : LidKey), x)] ↔ lid.spelling = 0 ∧ ∃ r, Dict.get? [(1, 55)] lid.id = some r := by
      intro x lid
      simp only [Dict.keys, List.map_cons, List.map_nil, List.mem_singleton, Dict.get?_cons, Dict.get?_nil]
      constructor
      · rintro rfl; exact ⟨rfl, 55, rfl⟩
      · rintro ⟨h1, r, h2⟩
        split at h2
        · next h3 => cases lid; simp at h1 h3; simp [h1, ← h3]
        · cases h2
    intro c hc
    simp only [List.mem_cons, List.not_mem_nil, or_false] at hc
    rcases hc with rfl | rfl | rfl <;> exact ⟨hl _, by decide +kernel⟩

/-- A node's COMMIT that spells a ledger in another way is accepted and stops the
multi-signature, although without it enough valid signatures are there. -/
theorem bls_spelling_blocks :
    let e : Event := .commit bLedger bPp 3 (some [(⟨1, 1⟩, 3055)])
    let h := [Event.ownCommit bLedger bPp, .commit bLedger bPp 2 (bSig 2), .commit bLedger bPp 4 (bSig 4)]
    (Bls.run bEnv 4 (h ++ [.order bLedger bPp])).savedLocal.length = 1 ∧
    (Bls.run bEnv 4 (h ++ [e, .order bLedger bPp])).savedLocal = [] := by
  decide +kernel

end Verif.Props
