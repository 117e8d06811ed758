import Verif.Spec.ClientAuth
import Verif.Proofs.Count
/-!
# C48: authentication of client requests
-/
namespace Verif.Props
open Verif Verif.Auth Verif.Spec.Auth Verif.Signing

theorem filter_nothing (d : Obj) : d.filter (fun e => !([] : List Bytes).contains e.1) = d := by
  rw [List.filter_eq_self]; intro a _; rfl

theorem nymSpecific_ok {msg : Obj} {key : Val} (h : nymSpecificAuth msg = .ok key) (hk : key ≠ .none) :
    ∃ op sender, Dict.get? msg (ascii "operation") = some (.dict op) ∧
      Dict.get? msg (ascii "identifier") = some sender ∧ (Dict.get? op (ascii "dest")).getD .none = sender ∧
      Dict.get? op (ascii "verkey") = some key := by
  unfold nymSpecificAuth at h
  split at h
  · next idr op h1 h2 =>
    split at h
    · next he =>
      injection h with h
      refine ⟨op, idr, h2, h1, he.symm, ?_⟩
      cases hv : Dict.get? op (ascii "verkey") with
      | none => rw [hv] at h; exact absurd h.symm hk
      | some v => rw [hv] at h; simpa using h
    · injection h with h; exact absurd h.symm hk
  · cases h

theorem getVerkey_iff (env : Env) (idr : Bytes) (msg : Obj) (key : Val) (hk : key ≠ .none) :
    getVerkey env idr msg = .ok key ↔ KeyOf env msg idr key := by
  constructor
  · intro h
    unfold getVerkey at h
    split at h
    · next k hc => injection h with h; subst h; exact .client hc
    · next hc =>
      split at h
      · next k hn => injection h with h; subst h; exact .ledger hc hn
      · next hn =>
        unfold getVerkeySpecific at h
        split at h
        · next op ho =>
          split at h
          · next t ht =>
            split at h
            · next h1 =>
              obtain ⟨op', sender, a, b, c, d⟩ := nymSpecific_ok h hk
              rw [ho] at a
              injection a with a; injection a with a; subst a
              exact .self op sender hc hn ho (h1 ▸ ht) b c d
            · injection h with h; exact absurd h.symm hk
          · cases h
        · cases h
  · rintro (hc | ⟨hc, hn⟩ | ⟨op, sender, hc, hn, ho, ht, hs, hd, hv⟩)
    · unfold getVerkey; rw [hc]
    · unfold getVerkey; rw [hc]; simp only; rw [hn]
    · unfold getVerkey; rw [hc]; simp only; rw [hn]; simp only
      unfold getVerkeySpecific; rw [ho]; simp only; rw [ht]; simp only [if_true]
      unfold nymSpecificAuth; rw [ho, hs]; simp only; rw [if_pos hd.symm, hv]; rfl

theorem checkOne_good (env : Env) (msg : Obj) (idr : Bytes) (sig : Val) :
    checkOne env msg idr sig = .ok true ↔ Good env msg idr sig := by
  have hs : serializeMsgForSigning env.floatStr (.dict msg) [] = ser env.floatStr (.dict msg) := by
    unfold serializeMsgForSigning serialize; simp only; rw [filter_nothing]
  constructor
  · intro h
    unfold checkOne at h
    split at h
    · cases h
    · next raw hr =>
      split at h
      · cases h
      · next bytes hb =>
        split at h
        · cases h
        · cases h
        · next key hne hk =>
          split at h
          · cases h
          · next b hv =>
            injection h with h; subst h
            exact ⟨raw, bytes, _, hr, hs ▸ hb, (getVerkey_iff _ _ _ _ (fun e => hne (by rw [e]))).1 hk, fun e => hne (by rw [e]), hv⟩
  · rintro ⟨raw, bytes, key, h1, h2, h3, h4, h5⟩
    have hk := (getVerkey_iff env idr msg key h4).2 h3
    unfold checkOne
    rw [h1]; simp only; rw [hs, h2]; simp only; rw [hk]
    cases key with
    | none => exact absurd rfl h4
    | _ => simp only; rw [h5]

theorem authLoop_sound {env : Env} {msg : Obj} {t : Nat} {ids : List Bytes} :
    ∀ (sigs : List (Bytes × Val)) (ok : List Bytes), authLoop env msg t sigs ok = .ok ids →
    ids.length = t ∧ ∃ l : List (Bytes × Val), l.Sublist sigs ∧ ids = ok ++ l.map Prod.fst ∧
      ∀ e ∈ l, Good env msg e.1 e.2 := by
  intro sigs
  induction sigs with
  | nil => intro ok h; cases h
  | cons e rest ih =>
    intro ok h
    obtain ⟨idr, sig⟩ := e
    unfold authLoop at h
    split at h
    · cases h
    · next hc =>
      have hg := (checkOne_good _ _ _ _).1 hc
      split at h
      · next hl =>
        injection h with h; subst h
        exact ⟨hl, [(idr, sig)], by simp, rfl, fun e he => by rw [List.mem_singleton.1 he]; exact hg⟩
      · obtain ⟨a, l, b, c, d⟩ := ih _ h
        refine ⟨a, (idr, sig) :: l, b.cons_cons _, by simp [c], ?_⟩
        intro e he
        rcases List.mem_cons.1 he with rfl | he
        · exact hg
        · exact d e he
    · obtain ⟨a, l, b, c, d⟩ := ih _ h
      exact ⟨a, l, b.cons _, c, d⟩

/-- C48: with different identifiers and a threshold, authentication gives that many
different signers, each of whom gave a correct signature. -/
theorem multi_auth_threshold (env : Env) (msg : Obj) (sigs : List (Bytes × Val)) (hd : (sigs.map Prod.fst).Nodup)
    (t : Nat) (ids : List Bytes) (h : authenticateMulti env msg sigs (some t) = .ok ids) :
    ids.Nodup ∧ ids.length = t ∧ 0 < t ∧ ∀ i ∈ ids, ∃ sig, (i, sig) ∈ sigs ∧ Good env msg i sig := by
  unfold authenticateMulti at h
  simp only at h
  split at h
  · cases h
  · obtain ⟨a, l, b, c, d⟩ := authLoop_sound _ _ h
    rw [List.nil_append] at c
    refine ⟨?_, a, ?_, ?_⟩
    · rw [c]; exact (b.map Prod.fst).nodup hd
    · cases sigs with
      | nil => cases h
      | cons e rest =>
        rw [← a]
        apply Nat.pos_of_ne_zero
        intro h0
        have : t = 0 := by rw [← a]; exact h0
        subst this
        have : ids = [] := List.length_eq_zero_iff.1 h0
        subst this
        clear a b c d hd
        have key : ∀ (sigs : List (Bytes × Val)) (ok ids : List Bytes), authLoop env msg 0 sigs ok = .ok ids → False := by
          intro sigs
          induction sigs with
          | nil => intro ok ids h; cases h
          | cons e r ih =>
            intro ok ids h
            unfold authLoop at h
            split at h
            · cases h
            · split at h
              · next hl => simp at hl
              · exact ih _ _ h
            · exact ih _ _ h
        exact key _ _ _ h
    · intro i hi
      rw [c] at hi
      obtain ⟨e, he, rfl⟩ := List.mem_map.1 hi
      exact ⟨e.2, b.subset he, d e he⟩

theorem authLoop_complete {env : Env} {msg : Obj} {t : Nat} :
    ∀ (sigs : List (Bytes × Val)) (ok : List Bytes), (∀ e ∈ sigs, Good env msg e.1 e.2) → ok.length < t →
    t ≤ ok.length + sigs.length →
    authLoop env msg t sigs ok = .ok (ok ++ (sigs.map Prod.fst).take (t - ok.length)) := by
  intro sigs
  induction sigs with
  | nil => intro ok _ h1 h2; simp at h2; omega
  | cons e rest ih =>
    intro ok hg h1 h2
    obtain ⟨idr, sig⟩ := e
    have hc := (checkOne_good env msg idr sig).2 (hg (idr, sig) (by simp))
    unfold authLoop
    rw [hc]
    simp only [List.length_cons, List.length_append, List.length_nil] at h2 ⊢
    split
    · next hl =>
      have : t - ok.length = 1 := by omega
      rw [this]; rfl
    · next hl =>
      rw [ih (ok ++ [idr]) (fun e he => hg e (List.mem_cons_of_mem _ he)) (by simp; omega) (by simp; omega)]
      have : t - ok.length = (t - (ok ++ [idr]).length) + 1 := by simp; omega
      rw [this]
      simp

/-- C48: with no threshold, authentication succeeds exactly if there is a signature
and all are correct, and gives all signers. -/
theorem multi_auth_all (env : Env) (msg : Obj) (sigs : List (Bytes × Val)) (ids : List Bytes) :
    authenticateMulti env msg sigs none = .ok ids ↔
    sigs ≠ [] ∧ (∀ e ∈ sigs, Good env msg e.1 e.2) ∧ ids = sigs.map Prod.fst := by
  constructor
  · intro h
    unfold authenticateMulti at h
    obtain ⟨a, l, b, c, d⟩ := authLoop_sound _ _ h
    rw [List.nil_append] at c
    have hl : l = sigs := b.eq_of_length (by rw [← a, c]; simp)
    subst hl
    refine ⟨?_, d, c⟩
    rintro rfl
    cases h
  · rintro ⟨h1, h2, rfl⟩
    unfold authenticateMulti
    simp only
    rw [authLoop_complete sigs [] h2 (by simpa using List.length_pos_iff.2 h1) (by simp)]
    simp [List.take_of_length_le]

/-- Enough correct signatures, when all are correct, are accepted for any threshold
from 1 to their number. -/
theorem multi_auth_enough (env : Env) (msg : Obj) (sigs : List (Bytes × Val)) (t : Nat) (h0 : 0 < t) (ht : t ≤ sigs.length)
    (hg : ∀ e ∈ sigs, Good env msg e.1 e.2) :
    authenticateMulti env msg sigs (some t) = .ok ((sigs.map Prod.fst).take t) := by
  unfold authenticateMulti
  simp only
  rw [if_neg (by omega), authLoop_complete sigs [] hg (by simpa using h0) (by simpa using ht)]
  simp

/-! ## Requests -/

/-- The signatures a request is checked on. -/
def sigsOf (req : Obj) : List (Bytes × Val) :=
  match signaturesOf req with
  | .ok l => l
  | .error _ => []

theorem toSerialize_eq (req : Obj) : toSerialize req = signedPart req := by
  unfold toSerialize signedPart
  congr 1
  funext e
  simp [excluded, Bool.and_assoc]

theorem signaturesOf_iff (req : Obj) (sigs : List (Bytes × Val)) : signaturesOf req = .ok sigs ↔ Carries req sigs := by
  unfold signaturesOf
  by_cases h : SingleSigned req
  · have h' : (truthy (Dict.get? req (ascii "identifier")) && truthy (Dict.get? req (ascii "signature"))) = true := by
      rw [Bool.and_eq_true]; exact h
    rw [if_pos h']
    constructor
    · intro hs
      split at hs
      · next i s h1 h2 => injection hs with hs; subst hs; exact .one i s h h1 h2
      · cases hs
    · rintro (⟨i, s, _, h1, h2⟩ | ⟨d, hn, _⟩)
      · rw [h1, h2]
      · exact absurd h hn
  · have h' : ¬ (truthy (Dict.get? req (ascii "identifier")) && truthy (Dict.get? req (ascii "signature"))) = true := by
      rw [Bool.and_eq_true]; exact h
    rw [if_neg h']
    constructor
    · intro hs
      split at hs
      · next d h1 => injection hs with hs; subst hs; exact .many _ h h1
      · cases hs
    · rintro (⟨i, s, hy, _, _⟩ | ⟨d, _, h1⟩)
      · exact absurd hy h
      · rw [h1]

/-- C48: a request is accepted by the core authenticator exactly if it carries
signatures, every one of them is correct over the request without its signatures and
fees, and the result is the list of all its signers. -/
theorem core_auth (env : Env) (req : Obj) (ids : List Bytes) :
    coreAuthenticate env req = .ok ids ↔
    ∃ sigs, Carries req sigs ∧ sigs ≠ [] ∧ (∀ e ∈ sigs, Good env (signedPart req) e.1 e.2) ∧ ids = sigs.map Prod.fst := by
  simp only [← signaturesOf_iff, ← toSerialize_eq]
  unfold coreAuthenticate
  constructor
  · intro h
    split at h
    · cases h
    · split at h
      · cases h
      · next sigs hs => exact ⟨sigs, hs, (multi_auth_all _ _ _ _).1 h⟩
  · rintro ⟨sigs, hs, h⟩
    split
    · next ha =>
      exfalso
      rw [Bool.and_eq_true] at ha
      obtain ⟨h1, h2⟩ := ha
      unfold signaturesOf at hs
      have e1 : truthy (Dict.get? req (ascii "signature")) = false := by
        unfold absent at h1
        simp only [Bool.or_eq_true, decide_eq_true_eq] at h1
        rcases h1 with h1 | h1 <;> rw [h1] <;> rfl
      rw [e1, Bool.and_false] at hs
      simp only [Bool.false_eq_true, if_false] at hs
      unfold absent at h2
      simp only [Bool.or_eq_true, decide_eq_true_eq] at h2
      rcases h2 with h2 | h2 <;> rw [h2] at hs <;> cases hs
    · rw [hs]; exact (multi_auth_all _ _ _ _).2 h

theorem allAuth_ok {typ : Val} {req : Obj} : ∀ (as : List Authnr) (ids : List Bytes) (r : Option (List Bytes)),
    allAuth typ req as ids = .ok r →
    (r = none ∧ ∃ a ∈ as, a.isQuery typ = true) ∨
    (∃ rvs : List (List Bytes), r = some (ids ++ rvs.flatten) ∧
      (as.filter (fun a => a.isWrite typ || a.isAction typ)).map (fun a => a.authenticate req) = rvs.map Except.ok) := by
  intro as
  induction as with
  | nil => intro ids r h; injection h with h; subst h; exact .inr ⟨[], by simp, rfl⟩
  | cons a rest ih =>
    intro ids r h
    unfold allAuth at h
    split at h
    · next hq => injection h with h; exact .inl ⟨h.symm, a, by simp, hq⟩
    · split at h
      · next hw =>
        have hw' : (a.isWrite typ || a.isAction typ) = false := by simpa using hw
        rcases ih _ _ h with ⟨h1, b, hb, h2⟩ | ⟨rvs, h1, h2⟩
        · exact .inl ⟨h1, b, List.mem_cons_of_mem _ hb, h2⟩
        · refine .inr ⟨rvs, h1, ?_⟩
          rw [List.filter_cons_of_neg (by simp [hw'])]; exact h2
      · next hw =>
        have hw' : (a.isWrite typ || a.isAction typ) = true := by
          cases hb : (a.isWrite typ || a.isAction typ)
          · rw [hb] at hw; exact absurd rfl hw
          · rfl
        split at h
        · cases h
        · next rv hrv =>
          rcases ih _ _ h with ⟨h1, b, hb, h2⟩ | ⟨rvs, h1, h2⟩
          · exact .inl ⟨h1, b, List.mem_cons_of_mem _ hb, h2⟩
          · refine .inr ⟨rv :: rvs, by simp [h1], ?_⟩
            rw [List.filter_cons_of_pos (by simpa using hw')]; simp [h2, hrv]

theorem fresh_ok {as : List Authnr} {cache : Dict Bytes Verified} {req : Obj} {key : Option Bytes} {ids : List Bytes}
    (h : (fresh as cache req key).1 = .ok ids) :
    (ids = [] ∧ Query as req ∧ (fresh as cache req key).2 = cache) ∨
    (Accepted as req ids ∧ (fresh as cache req key).2 = store cache req key ids) := by
  unfold fresh at h ⊢
  cases hq : allAuth (reqType req) req as [] with
  | error e => rw [hq] at h; cases h
  | ok r =>
    rw [hq] at h
    cases r with
    | none =>
      injection h with h
      rcases allAuth_ok _ _ _ hq with ⟨_, h2⟩ | ⟨_, h2, _⟩
      · exact .inl ⟨h.symm, h2, rfl⟩
      · cases h2
    | some l =>
      cases l with
      | nil => cases h
      | cons i t =>
        injection h with h; subst h
        rcases allAuth_ok _ _ _ hq with ⟨h2, _⟩ | ⟨rvs, h2, h3⟩
        · cases h2
        · injection h2 with h2
          exact .inr ⟨⟨by simp, rvs, by simpa using h2, h3⟩, rfl⟩

theorem fresh_err {as : List Authnr} {cache : Dict Bytes Verified} {req : Obj} {key : Option Bytes} {e : Err}
    (h : (fresh as cache req key).1 = .error e) : (fresh as cache req key).2 = cache := by
  unfold fresh at h ⊢
  cases hq : allAuth (reqType req) req as [] with
  | error e => rfl
  | ok r =>
    rw [hq] at h
    cases r with
    | none => cases h
    | some l =>
      cases l with
      | nil => rfl
      | cons i t => cases h

/-- An entry of the cache comes from a call that accepted a request with this key and
signature. -/
def Backed (h : List Event) (key : Bytes) (v : Verified) : Prop :=
  ∃ as req, Event.authenticate as req (some key) ∈ h ∧ v.signature = sigField req ∧ Accepted as req v.identifiers

theorem backed_mono {h : List Event} {key : Bytes} {v : Verified} (e : Event) (hb : Backed h key v) : Backed (h ++ [e]) key v := by
  obtain ⟨as, req, a, b⟩ := hb
  exact ⟨as, req, List.mem_append_left _ a, b⟩

theorem existing_some {cache : Dict Bytes Verified} {req : Obj} {k : Bytes} {v : Verified} (h : existing cache req k = some v) :
    cache.get? k = some v ∧ sigField req = v.signature := by
  unfold existing at h
  split at h
  · next w hw =>
    split at h
    · next hs => injection h with h; subst h; exact ⟨hw, hs⟩
    · cases h
  · cases h

theorem run_backed (h : List Event) : ∀ key v, (Auth.run h).get? key = some v → Backed h key v := by
  induction h using snoc_induction with
  | nil => intro key v h; cases h
  | snoc l e ih =>
    intro key v hv
    unfold Auth.run at hv
    rw [List.foldl_append] at hv
    change (step (Auth.run l) e).get? key = some v at hv
    cases e with
    | clean k =>
      simp only [step, Dict.get?_erase] at hv
      split at hv
      · cases hv
      · exact backed_mono _ (ih key v hv)
    | authenticate as req k =>
      have old : (Auth.run l).get? key = some v → Backed (l ++ [.authenticate as req k]) key v := fun h => backed_mono _ (ih key v h)
      have fr : ∀ k', (k' = none ∨ k' = k) → (fresh as (Auth.run l) req k').2.get? key = some v →
          Backed (l ++ [.authenticate as req k]) key v := by
        intro k' hk' hf
        cases hr : (fresh as (Auth.run l) req k').1 with
        | error e => rw [fresh_err hr] at hf; exact old hf
        | ok ids =>
          rcases fresh_ok hr with ⟨_, _, h3⟩ | ⟨h1, h2⟩
          · rw [h3] at hf; exact old hf
          · rw [h2] at hf
            rcases hk' with rfl | rfl
            · exact old hf
            · cases k' with
              | none => exact old hf
              | some k =>
                simp only [store, Dict.get?_set] at hf
                split at hf
                · next e => subst e; injection hf with hf; subst hf; exact ⟨as, req, by simp, rfl, h1⟩
                · exact old hf
      simp only [step] at hv
      unfold Auth.authenticate at hv
      split at hv
      · split at hv
        · exact old hv
        · exact fr _ (.inr rfl) hv
      · exact fr _ (.inl rfl) hv

/-- C48: after any history, if a call accepts a request with signers `ids`, the request
is a query, or it was accepted now, or an earlier call with the same key accepted a
request with the same `signature` field and the same signers. -/
theorem req_auth_history (h : List Event) (as : List Authnr) (req : Obj) (key : Option Bytes) (ids : List Bytes)
    (ha : (Auth.authenticate as (Auth.run h) req key).1 = .ok ids) :
    (ids = [] ∧ Query as req) ∨ Accepted as req ids ∨
    ∃ k as' req', key = some k ∧ Event.authenticate as' req' (some k) ∈ h ∧ sigField req' = sigField req ∧
      Accepted as' req' ids := by
  unfold Auth.authenticate at ha
  have fr : ∀ k, (fresh as (Auth.run h) req k).1 = .ok ids → (ids = [] ∧ Query as req) ∨ Accepted as req ids := by
    intro k hf
    rcases fresh_ok hf with ⟨a, b, _⟩ | ⟨a, _⟩
    · exact .inl ⟨a, b⟩
    · exact .inr a
  split at ha
  · next c k =>
    split at ha
    · next v hv =>
      injection ha with ha; subst ha
      obtain ⟨h1, h2⟩ := existing_some hv
      obtain ⟨as', req', a, b, d⟩ := run_backed h _ _ h1
      exact .inr (.inr ⟨_, as', req', rfl, a, by rw [h2, b], d⟩)
    · exact (fr _ ha).imp id .inl
  · exact (fr _ ha).imp id .inl

/-- C48 for a node, whose only authenticator is the core one and whose keys are
request digests: every accepted write or action has only correct signatures, or has
the digest of a request accepted before by its own correct signatures. -/
theorem node_auth_history (keyOf : Obj → Bytes) (writes queries actions : List Val) (envs : List (Env × Obj)) (env : Env)
    (req : Obj) (ids : List Bytes) (h : List Event)
    (hh : ∀ e ∈ h, (∃ p ∈ envs, e = .authenticate [coreAuthnr p.1 writes queries actions] p.2 (some (keyOf p.2))) ∨ ∃ k, e = .clean k)
    (hq : reqType req ∉ queries)
    (ha : (Auth.authenticate [coreAuthnr env writes queries actions] (Auth.run h) req (some (keyOf req))).1 = .ok ids) :
    ∃ env' req', ((env', req') = (env, req) ∨ (env', req') ∈ envs ∧ keyOf req' = keyOf req ∧ sigField req' = sigField req) ∧
      ∃ sigs, Carries req' sigs ∧ sigs ≠ [] ∧ (∀ e ∈ sigs, Good env' (signedPart req') e.1 e.2) ∧
        ids = sigs.map Prod.fst := by
  have acc : ∀ env req ids, Accepted [coreAuthnr env writes queries actions] req ids →
      coreAuthenticate env req = .ok ids := by
    rintro env req ids ⟨hne, rvs, h1, h2⟩
    by_cases hw : ((coreAuthnr env writes queries actions).isWrite (reqType req) ||
        (coreAuthnr env writes queries actions).isAction (reqType req)) = true
    · rw [List.filter_cons_of_pos (by exact hw)] at h2
      cases rvs with
      | nil => simp at h2
      | cons rv rest =>
        cases rest with
        | nil =>
          simp only [List.filter_nil, List.map_cons, List.map_nil, List.cons.injEq, and_true] at h2
          rw [h1]; simpa [coreAuthnr] using h2
        | cons _ _ => simp at h2
    · rw [List.filter_cons_of_neg (by exact hw)] at h2
      cases rvs with
      | nil => exact absurd h1 hne
      | cons _ _ => simp at h2
  rcases req_auth_history h _ _ _ _ ha with ⟨_, a, hm, hqq⟩ | hacc | ⟨k, as', req', hk, hmem, hs, hacc⟩
  · rw [List.mem_singleton.1 hm] at hqq
    exact absurd (by simpa [coreAuthnr] using hqq) hq
  · exact ⟨env, req, .inl rfl, (core_auth _ _ _).1 (acc _ _ _ hacc)⟩
  · injection hk with hk; subst hk
    rcases hh _ hmem with ⟨p, hp, he⟩ | ⟨_, he⟩
    · injection he with he1 he2 he3
      subst he1; subst he2
      injection he3 with he3
      exact ⟨p.1, p.2, .inr ⟨hp, he3.symm, hs⟩, (core_auth _ _ _).1 (acc _ _ _ hacc)⟩
    · cases he

/-! ## Examples -/

private def authEnv : Env where
  b58decode v := match v with | .str s => some s | _ => none
  floatStr _ := []
  clients := [(ascii "A", .str (ascii "ka")), (ascii "B", .str (ascii "kb"))]
  nym i := if i = ascii "C" then some (.str (ascii "kc")) else none
  verify k _ sig _ := some (k = .str sig)

private def authReq (sigs : List (Bytes × Val)) : Obj :=
  [(ascii "identifier", .str (ascii "A")), (ascii "reqId", .int 7),
   (ascii "operation", .dict [(ascii "type", .str (ascii "9"))]), (ascii "signatures", .dict sigs)]

private def sigA : Bytes × Val := (ascii "A", .str (ascii "ka"))
private def sigB : Bytes × Val := (ascii "B", .str (ascii "kb"))
private def sigC : Bytes × Val := (ascii "C", .str (ascii "kc"))
private def sigBad : Bytes × Val := (ascii "B", .str (ascii "kx"))

/-- Two of three with one wrong signature pass a threshold of 2 and not of 3; with no
threshold all three must be right. -/
example : authenticateMulti authEnv (authReq []) [sigA, sigBad, sigC] (some 2) = .ok [ascii "A", ascii "C"] ∧
    authenticateMulti authEnv (authReq []) [sigA, sigBad, sigC] (some 3) = .error .insufficientCorrectSignatures ∧
    coreAuthenticate authEnv (authReq [sigA, sigB, sigC]) = .ok [ascii "A", ascii "B", ascii "C"] ∧
    coreAuthenticate authEnv (authReq [sigA, sigBad, sigC]) = .error .insufficientCorrectSignatures := by
  decide +kernel

private def authCore : List Authnr := [coreAuthnr authEnv [.str (ascii "9")] [] []]

/-- A hit in the cache: the same key, no `signature` field, other signatures. -/
example : let h := [Event.authenticate authCore (authReq [sigA, sigB]) (some (ascii "k"))]
    (Auth.authenticate authCore (Auth.run h) (authReq [sigBad]) (some (ascii "k"))).1 = .ok [ascii "A", ascii "B"] ∧
    (Auth.authenticate authCore (Auth.run (h ++ [.clean (ascii "k")])) (authReq [sigBad]) (some (ascii "k"))).1 =
      .error .insufficientCorrectSignatures := by
  decide +kernel

/-- What `Good` does not say: in a request that creates the identity of its own sender,
the key of that identity also verifies signatures under every unknown identifier. Here
`X` and `Y` are unknown, and the same key signs as both. -/
theorem auth_unknown_signers_share_key :
    let req : Obj := [(ascii "identifier", .str (ascii "X")), (ascii "reqId", .int 7),
      (ascii "operation", .dict [(ascii "type", .str (ascii "1")), (ascii "dest", .str (ascii "X")), (ascii "verkey", .str (ascii "kx"))]),
      (ascii "signatures", .dict [(ascii "X", .str (ascii "kx")), (ascii "Y", .str (ascii "kx"))])]
    authEnv.clients.get? (ascii "Y") = none ∧ authEnv.nym (ascii "Y") = none ∧
    coreAuthenticate authEnv req = .ok [ascii "X", ascii "Y"] := by
  decide +kernel

end Verif.Props
