import Verif.Spec.Taa
import Verif.Proofs.Count
/-!
# C46, C47 and C70: the transaction author agreement
-/
namespace Verif.Props
open Verif Verif.Taa Verif.Spec.Taa

/-! ## Paths -/

/-- The five kinds of paths do not meet, and the path tells the version or digest. -/
theorem taa_paths (a b : Bytes) :
    pathLatest ≠ pathVersion a ∧ pathLatest ≠ pathDigest a ∧ pathVersion a ≠ pathDigest b ∧
    pathAmlLatest ≠ pathAmlVersion a ∧ pathLatest ≠ pathAmlLatest ∧
    (∀ x ∈ [pathLatest, pathVersion a, pathDigest a], ∀ y ∈ [pathAmlLatest, pathAmlVersion b], x ≠ y) ∧
    (pathVersion a = pathVersion b → a = b) ∧ (pathDigest a = pathDigest b → a = b) ∧
    (pathAmlVersion a = pathAmlVersion b → a = b) := by
  have e1 : pathLatest = [50, 58, 108, 97, 116, 101, 115, 116] := by decide
  have e2 : ∀ x, pathVersion x = 50 :: 58 :: 118 :: 58 :: x := fun x => rfl
  have e3 : ∀ x, pathDigest x = 50 :: 58 :: 100 :: 58 :: x := fun x => rfl
  have e4 : pathAmlLatest = [51, 58, 108, 97, 116, 101, 115, 116] := by decide
  have e5 : ∀ x, pathAmlVersion x = 51 :: 58 :: 118 :: 58 :: x := fun x => rfl
  rw [e1, e2, e2, e3, e3, e4, e5, e5]
  refine ⟨by simp, by simp, by simp, by simp, by simp, ?_, by simp, by simp, by simp⟩
  intro x hx y hy
  simp only [List.mem_cons, List.not_mem_nil, or_false] at hx hy
  rcases hx with rfl | rfl | rfl <;> rcases hy with rfl | rfl <;> simp

/-! ## C46 -/

theorem day_le_iff (a b : Int) : day a ≤ day b ↔ midnight a ≤ midnight b := by
  unfold day midnight; omega

/-- The check of the times. -/
theorem checkTimes_iff (cfg : Cfg) (r : Rec) (t pp : Int) (h1 : InCalendar t) (h2 : InCalendar (r.ratified - cfg.beforeTaa))
    (h3 : InCalendar (pp + cfg.afterPp)) :
    checkTimes cfg r t pp = .ok () ↔
    midnight t = t ∧ midnight (r.ratified - cfg.beforeTaa) ≤ t ∧ t ≤ midnight (pp + cfg.afterPp) := by
  have r1 : inRange t = true := by unfold inRange; simp [h1.1, h1.2]
  have r2 : inRange (r.ratified - cfg.beforeTaa) = true := by unfold inRange; simp [h2.1, h2.2]
  have r3 : inRange (pp + cfg.afterPp) = true := by unfold inRange; simp [h3.1, h3.2]
  unfold checkTimes
  rw [r1, r2, r3]
  simp only [Bool.not_true, Bool.false_eq_true, if_false, Bool.or_self]
  split
  · next h => constructor
              · intro hh; cases hh
              · rintro ⟨hm, _⟩; unfold midnight at hm; omega
  · next h =>
    have hm : midnight t = t := by unfold midnight; omega
    split
    · next h' =>
      constructor
      · intro hh; cases hh
      · rintro ⟨_, h4, h5⟩
        have a := day_le_iff (r.ratified - cfg.beforeTaa) t
        have b := day_le_iff t (pp + cfg.afterPp)
        rw [hm] at a b
        have a' := a.2 h4
        have b' := b.2 h5
        omega
    · next h' =>
      refine ⟨fun _ => ⟨hm, ?_, ?_⟩, fun _ => rfl⟩
      · have a := day_le_iff (r.ratified - cfg.beforeTaa) t
        rw [hm] at a
        exact a.1 (by omega)
      · have b := day_le_iff t (pp + cfg.afterPp)
        rw [hm] at b
        exact b.1 (by omega)

theorem checkTimes_calendar {cfg : Cfg} {r : Rec} {t pp : Int} (h : checkTimes cfg r t pp = .ok ()) :
    InCalendar t ∧ InCalendar (r.ratified - cfg.beforeTaa) ∧ InCalendar (pp + cfg.afterPp) := by
  have key : ∀ x, ¬ ((!inRange x) = true) → InCalendar x := by
    intro x hx
    unfold inRange at hx
    simp at hx
    exact hx
  unfold checkTimes at h
  split at h
  · cases h
  · next h1 =>
    split at h
    · cases h
    · split at h
      · cases h
      · next h2 =>
        rw [Bool.or_eq_true, not_or] at h2
        exact ⟨key _ h1, key _ h2.1, key _ h2.2⟩

theorem isRetired_iff (r : Rec) (pp : Int) : isRetired r pp = false ↔ ∀ t, r.retired = some t → t ≠ 0 → pp ≤ t := by
  unfold isRetired
  cases r.retired with
  | none => simp
  | some t =>
    simp only [Option.some.injEq, forall_eq', Bool.and_eq_false_iff, decide_eq_false_iff_not]
    constructor
    · rintro (h | h)
      · intro h0; exact absurd h0 h
      · intro _; omega
    · intro h
      by_cases h0 : t = 0
      · left; simp [h0]
      · right; have := h h0; omega

theorem inForce_iff (s : State) : (getTaaData s none).isNone = true ↔ ∀ d, s.latest = some d → s.taas.get? d = none := by
  unfold getTaaData
  cases hl : s.latest with
  | none => simp
  | some d => simp

/-- C46: what passes the check is what may pass. The mechanisms are those of the
committed state, everything else is read from the uncommitted one. -/
theorem taa_validation_sound (cfg : Cfg) (committed s : State) (required : Bool) (acceptance : Option Acceptance) (pp : Int)
    (h : doTaaValidation cfg committed s required acceptance pp = .ok ()) :
    MayPass cfg committed.amlLatest s acceptance pp required := by
  unfold doTaaValidation at h
  cases required with
  | false =>
    simp only [Bool.not_false, if_true] at h
    cases acceptance with
    | none => exact .notRequired rfl
    | some a => cases h
  | true =>
    simp only [Bool.not_true, Bool.false_eq_true, if_false] at h
    split at h
    · next hf => exact .notInForce ((inForce_iff s).1 hf)
    · split at h
      · cases h
      · next a =>
        split at h
        · cases h
        · next r hr =>
          split at h
          · cases h
          · next hret =>
            split at h
            · cases h
            · next hct =>
              have hct : checkTimes cfg r a.time pp = .ok () := hct
              obtain ⟨c1, c2, c3⟩ := checkTimes_calendar hct
              obtain ⟨t1, t2, t3⟩ := (checkTimes_iff cfg r a.time pp c1 c2 c3).1 hct
              unfold checkMechanism at h
              split at h
              · cases h
              · next l hl =>
                split at h
                · next hm =>
                  exact .accepted a r l rfl hr hl ⟨(isRetired_iff r pp).1 (by simpa using hret), t1, t2, t3, by simpa using hm⟩
                · cases h

/-- C46, the converse: what may pass does pass, as long as the times are within the
calendar of years 1 to 9999. -/
theorem taa_validation_complete (cfg : Cfg) (committed s : State) (required : Bool) (acceptance : Option Acceptance) (pp : Int)
    (hcal : ∀ a r, acceptance = some a → s.taas.get? a.digest = some r →
      InCalendar a.time ∧ InCalendar (r.ratified - cfg.beforeTaa) ∧ InCalendar (pp + cfg.afterPp))
    (h : MayPass cfg committed.amlLatest s acceptance pp required) :
    doTaaValidation cfg committed s required acceptance pp = .ok () := by
  unfold doTaaValidation
  rcases h with h | h | ⟨a, r, l, ha, hr, hl, hg⟩
  · subst h; rfl
  · simp only [Bool.not_true, Bool.false_eq_true, if_false]
    rw [if_pos ((inForce_iff s).2 h)]
  · simp only [Bool.not_true, Bool.false_eq_true, if_false]
    split
    · rfl
    · obtain ⟨c1, c2, c3⟩ := hcal a r ha hr
      subst ha
      have hr' : getTaaData s (some a.digest) = some r := hr
      simp only [hr']
      rw [(isRetired_iff r pp).2 hg.notRetired]
      have hct := (checkTimes_iff cfg r a.time pp c1 c2 c3).2 ⟨hg.whole, hg.notBefore, hg.notAfter⟩
      simp only [Bool.false_eq_true, if_false, hct]
      unfold checkMechanism
      rw [hl]
      simp [hg.listed]

private def taaRec : Rec := ⟨some (ascii "text"), ascii "1", 1600000000, none, 5, 1600000100⟩
private def taaState : State := { latest := some [1], versions := [(ascii "1", [1])], taas := [([1], taaRec)], amlLatest := some [ascii "click"] }

/-- A good acceptance passes; one day early, one day late, with a time within the day,
with another mechanism, for an unknown agreement, or none at all, it does not. -/
example :
    doTaaValidation {} taaState taaState true (some ⟨[1], ascii "click", 1600041600⟩) 1600100000 = .ok () ∧
    doTaaValidation {} taaState taaState true (some ⟨[1], ascii "click", 1599868800⟩) 1600100000 = .error .wrongTime ∧
    doTaaValidation {} taaState taaState true (some ⟨[1], ascii "click", 1600214400⟩) 1600100000 = .error .wrongTime ∧
    doTaaValidation {} taaState taaState true (some ⟨[1], ascii "click", 1600041601⟩) 1600100000 = .error .tooPrecise ∧
    doTaaValidation {} taaState taaState true (some ⟨[1], ascii "talk", 1600041600⟩) 1600100000 = .error .badMechanism ∧
    doTaaValidation {} taaState taaState true (some ⟨[2], ascii "click", 1600041600⟩) 1600100000 = .error .notFound ∧
    doTaaValidation {} taaState taaState true none 1600100000 = .error .missing ∧
    doTaaValidation {} taaState taaState false none 1600100000 = .ok () := by
  decide +kernel

/-- The list of mechanisms is read from the committed state: two nodes with the same
uncommitted state, one of which has not yet committed the batch with the list, decide
differently on the same request in the same batch. -/
theorem taa_decision_depends_on_commits :
    ∃ (s c c' : State) (a : Acceptance) (pp : Int),
      doTaaValidation {} c s true (some a) pp = .ok () ∧ doTaaValidation {} c' s true (some a) pp ≠ .ok () := by
  refine ⟨taaState, taaState, {}, ⟨[1], ascii "click", 1600041600⟩, 1600100000, ?_, ?_⟩
  · decide +kernel
  · decide +kernel

/-- C71, the part that holds: nodes with the same uncommitted state and the same
committed list of mechanisms decide alike. Missing: independence of that list, which
`taa_decision_depends_on_commits` refutes. -/
theorem taa_decision_deterministic_partial (cfg : Cfg) (c c' s : State) (required : Bool) (acceptance : Option Acceptance) (pp : Int)
    (h : c.amlLatest = c'.amlLatest) :
    doTaaValidation cfg c s required acceptance pp = doTaaValidation cfg c' s required acceptance pp := by
  unfold doTaaValidation checkMechanism
  rw [h]

/-! ## C47 -/

/-- C47, the part that holds: after any history, a request changes the agreements, their
versions or the mechanism lists only if its sender is a trustee, unless it is a
request to disable the agreement. -/
theorem taa_change_needs_trustee_partial (H : Bytes → Bytes) (s : State) (e : Submit) (hc : Taa.step H s e ≠ s)
    (hd : e.op ≠ .disable) : e.trustee e.identifier = true := by
  unfold Taa.step at hc
  split at hc
  · next hv =>
    unfold dynamicValidation at hv
    split at hv
    · cases hv
    · next ha =>
      unfold authorize at ha
      cases ho : e.op with
      | disable => exact absurd ho hd
      | taa _ _ _ _ => rw [ho] at ha; simpa using ha
      | aml _ _ => rw [ho] at ha; simpa using ha
  · exact absurd rfl hc

/-- A sender who is no trustee can disable the agreement: after that, requests without
acceptance pass. -/
theorem taa_disable_needs_no_trustee :
    let nobody : Submit := ⟨fun _ => false, ascii "X", .disable, 1600100000, 9⟩
    doTaaValidation {} taaState taaState true none 1600100000 ≠ .ok () ∧
    (Taa.step id taaState nobody).latest = none ∧
    doTaaValidation {} taaState (Taa.step id taaState nobody) true none 1600100000 = .ok () := by
  decide +kernel

/-- A trustee's request does change the agreement, and another's does not. -/
example :
    let op := Op.taa (ascii "2") (some (ascii "new")) (some 1600000000) none
    (Taa.step id taaState ⟨fun _ => true, ascii "T", op, 1600100000, 9⟩).latest = some (ascii "2new") ∧
    Taa.step id taaState ⟨fun _ => false, ascii "X", op, 1600100000, 9⟩ = taaState := by
  decide +kernel

/-! ## C70: agreements do not change -/

theorem dict_get_map {d : Dict Bytes Rec} (f : Rec → Rec) (k : Bytes) :
    Dict.get? (d.map (fun e => (e.1, f e.2))) k = (d.get? k).map f := by
  induction d with
  | nil => rfl
  | cons e r ih =>
    rw [List.map_cons, Dict.get?_cons, Dict.get?_cons]
    split
    · rfl
    · exact ih

theorem retireBy_keeps (n : Nat) (t : Int) (r : Rec) :
    (retireBy n t r).text = r.text ∧ (retireBy n t r).version = r.version ∧ (retireBy n t r).ratified = r.ratified := by
  unfold retireBy
  split
  · exact ⟨rfl, rfl, rfl⟩
  · split <;> exact ⟨rfl, rfl, rfl⟩

theorem asked_mono {h h' : List Submit} {v t : Bytes} (hm : Asked h v t) : Asked (h ++ h') v t := by
  obtain ⟨e', he, r⟩ := hm
  exact ⟨e', List.mem_append_left _ he, r⟩

theorem clash_mono {H : Bytes → Bytes} {h h' : List Submit} (hm : Clash H h) : Clash H (h ++ h') := by
  obtain ⟨v, t, v', t', a, b, c⟩ := hm
  exact ⟨v, t, v', t', asked_mono a, asked_mono b, c⟩

/-- What an accepted request for a new version is like. -/
theorem taa_add_accepted {trustee : Bytes → Bool} {s : State} {i : Bytes} {v : Bytes} {t : Option Bytes} {r x : Option Int} {pp : Int}
    {u : Unit} (h : dynamicValidation trustee s i (.taa v t r x) pp = .ok u) (hv : s.versions.get? v = none) :
    trustee i = true ∧ (∃ t', t = some t') ∧ ∃ r', r = some r' ∧ r' ≤ pp := by
  unfold dynamicValidation at h
  split at h
  · cases h
  · next ha =>
    refine ⟨by simpa [authorize] using ha, ?_⟩
    unfold additionalDynamicValidation at h
    simp only [hv] at h
    split at h
    · cases h
    · unfold validateAddTaa at h
      split at h
      · cases h
      · next ht =>
        split at h
        · cases h
        · split at h
          · cases h
          · next r' =>
            split at h
            · cases h
            · next hle =>
              refine ⟨?_, r', rfl, by omega⟩
              cases t with
              | none => exact absurd rfl ht
              | some t' => exact ⟨t', rfl⟩

/-- What an accepted request for an existing version is like. -/
theorem taa_update_accepted {trustee : Bytes → Bool} {s : State} {i : Bytes} {v d : Bytes} {t : Option Bytes} {r x : Option Int}
    {pp : Int} {u : Unit} (h : dynamicValidation trustee s i (.taa v t r x) pp = .ok u) (hv : s.versions.get? v = some d) :
    ∃ l, s.latest = some l ∧ l ≠ d := by
  unfold dynamicValidation at h
  split at h
  · cases h
  · unfold additionalDynamicValidation at h
    simp only [hv] at h
    split at h
    · cases h
    · unfold validateUpdateTaa at h
      split at h
      · cases h
      · split at h
        · cases h
        · split at h
          · cases h
          · split at h
            · cases h
            · next l hl =>
              split at h
              · cases h
              · next hne => exact ⟨l, hl, hne⟩

/-- What holds after a history without a clash. -/
structure TaaInv (H : Bytes → Bytes) (h : List Submit) (s : State) : Prop where
  made : ∀ v d, s.versions.get? v = some d → ∃ t, Asked h v t ∧ d = H (v ++ t) ∧
    ∃ r, s.taas.get? d = some r ∧ r.version = v ∧ r.text = some t
  digests : ∀ d r, s.taas.get? d = some r → s.versions.get? r.version = some d

/-- The digests a request for a new version can meet. -/
theorem taa_new_digest {H : Bytes → Bytes} {h : List Submit} {s : State} (hi : TaaInv H h s) {e : Submit} {v t : Bytes}
    (hnc : ¬ Clash H (h ++ [e])) (hm : Asked (h ++ [e]) v t) (hv : s.versions.get? v = none) :
    s.taas.get? (H (v ++ t)) = none := by
  cases hg : s.taas.get? (H (v ++ t)) with
  | none => rfl
  | some r =>
    exfalso
    have h1 := hi.digests _ _ hg
    obtain ⟨t', hm', hd, _⟩ := hi.made _ _ h1
    refine hnc ⟨v, t, r.version, t', hm, asked_mono hm', ?_, hd⟩
    rintro he
    rw [← he, hv] at h1; cases h1

theorem taa_inv_step {H : Bytes → Bytes} {h : List Submit} {s : State} (hi : TaaInv H h s) (e : Submit)
    (hnc : ¬ Clash H (h ++ [e])) : TaaInv H (h ++ [e]) (Taa.step H s e) := by
  have keep : TaaInv H (h ++ [e]) s := by
    refine ⟨fun v d hg => ?_, hi.digests⟩
    obtain ⟨t, a, b⟩ := hi.made v d hg
    exact ⟨t, asked_mono a, b⟩
  unfold Taa.step
  split
  · next hv =>
    cases ho : e.op with
    | aml v l => exact ⟨keep.made, keep.digests⟩
    | disable =>
      simp only [updateState]
      constructor
      · intro v d hg
        obtain ⟨t, a, b, r, c, c1, c2⟩ := keep.made v d hg
        obtain ⟨k1, k2, _⟩ := retireBy_keeps e.seqNo e.ppTime r
        refine ⟨t, a, b, retireBy e.seqNo e.ppTime r, ?_, k2.trans c1, k1.trans c2⟩
        rw [dict_get_map, c]; rfl
      · intro d r hg
        rw [dict_get_map] at hg
        cases hd : s.taas.get? d with
        | none => rw [hd] at hg; cases hg
        | some r0 =>
          rw [hd] at hg
          injection hg with hg
          subst hg
          rw [(retireBy_keeps e.seqNo e.ppTime r0).2.1]
          exact hi.digests d r0 hd
    | taa v t r x =>
      rw [ho] at hv
      simp only [updateState]
      cases hg : s.versions.get? v with
      | none =>
        obtain ⟨htr, ⟨t', rfl⟩, _⟩ := taa_add_accepted hv hg
        have hm : Asked (h ++ [e]) v t' := ⟨e, by simp, htr, r, x, ho⟩
        have hnew := taa_new_digest hi hnc hm hg
        simp only [digestInput, Option.getD_some]
        constructor
        · intro v' d' hg'
          simp only [addTaaToState, Dict.get?_set] at hg'
          split at hg'
          · next hvv =>
            injection hg' with hg'; subst hg'; subst hvv
            exact ⟨t', hm, rfl, ⟨some t', v, r.getD 0, none, e.seqNo, e.ppTime⟩, by simp [addTaaToState, Dict.get?_set], rfl, rfl⟩
          · obtain ⟨t2, a, b, r', c, d⟩ := keep.made v' d' hg'
            refine ⟨t2, a, b, r', ?_, d⟩
            simp only [addTaaToState, Dict.get?_set]
            rw [if_neg]
            · exact c
            · rintro rfl; rw [hnew] at c; cases c
        · intro d' r' hg'
          simp only [addTaaToState, Dict.get?_set] at hg' ⊢
          split at hg'
          · next hdd => injection hg' with hg'; subst hg'; simp [hdd]
          · have h3 := hi.digests d' r' hg'
            rw [if_neg]
            · exact h3
            · intro hvv
              rw [← hvv, hg] at h3; cases h3
      | some d =>
        simp only [updateTaaToState]
        cases hr : s.taas.get? d with
        | none => exact keep
        | some r0 =>
          constructor
          · intro v' d' hg'
            obtain ⟨t2, a, b, r', c, c1, c2⟩ := keep.made v' d' hg'
            simp only [Dict.get?_set]
            by_cases hdd : d = d'
            · subst hdd
              rw [hr] at c
              injection c with c
              subst c
              exact ⟨t2, a, b, _, if_pos rfl, c1, c2⟩
            · exact ⟨t2, a, b, r', by rw [if_neg hdd]; exact c, c1, c2⟩
          · intro d' r' hg'
            simp only [Dict.get?_set] at hg' ⊢
            split at hg'
            · next hdd =>
              injection hg' with hg'
              subst hg'; subst hdd
              exact hi.digests d r0 hr
            · exact hi.digests d' r' hg'
  · exact keep

theorem taa_run_snoc (H : Bytes → Bytes) (h : List Submit) (e : Submit) : Taa.run H (h ++ [e]) = Taa.step H (Taa.run H h) e := by
  unfold Taa.run; rw [List.foldl_append]; rfl

theorem taa_inv (H : Bytes → Bytes) (h : List Submit) : ¬ Clash H h → TaaInv H h (Taa.run H h) := by
  induction h using snoc_induction with
  | nil =>
    intro _
    exact ⟨fun v d hg => (by cases hg), fun d r hg => (by cases hg)⟩
  | snoc h e ih =>
    intro hnc
    rw [taa_run_snoc]
    exact taa_inv_step (ih (fun hc => hnc (clash_mono hc))) e hnc

/-- One step keeps versions and, without a clash, the agreement. -/
theorem taa_keep_step {H : Bytes → Bytes} {h : List Submit} {s : State} (e : Submit) {v d : Bytes}
    (hg : s.versions.get? v = some d) :
    (Taa.step H s e).versions.get? v = some d ∧
    ∀ r, TaaInv H h s → ¬ Clash H (h ++ [e]) → s.taas.get? d = some r → ∃ r', (Taa.step H s e).taas.get? d = some r' ∧
      r'.text = r.text ∧ r'.version = r.version ∧ r'.ratified = r.ratified := by
  unfold Taa.step
  split
  · next hv =>
    cases ho : e.op with
    | aml v l => exact ⟨hg, fun r _ _ hr => ⟨r, hr, rfl, rfl, rfl⟩⟩
    | disable =>
      refine ⟨hg, fun r _ _ hr => ⟨retireBy e.seqNo e.ppTime r, ?_, retireBy_keeps _ _ _⟩⟩
      simp only [updateState]
      rw [dict_get_map, hr]; rfl
    | taa v' t ra x =>
      rw [ho] at hv
      simp only [updateState]
      cases hg' : s.versions.get? v' with
      | none =>
        obtain ⟨htr, ⟨t', rfl⟩, _⟩ := taa_add_accepted hv hg'
        have hm : Asked (h ++ [e]) v' t' := ⟨e, by simp, htr, ra, x, ho⟩
        simp only [digestInput, Option.getD_some]
        constructor
        · simp only [addTaaToState, Dict.get?_set]
          rw [if_neg]
          · exact hg
          · rintro rfl; rw [hg'] at hg; cases hg
        · intro r hi hnc hr
          have hnew := taa_new_digest hi hnc hm hg'
          refine ⟨r, ?_, rfl, rfl, rfl⟩
          simp only [addTaaToState, Dict.get?_set]
          rw [if_neg]
          · exact hr
          · rintro rfl; rw [hnew] at hr; cases hr
      | some d' =>
        simp only [updateTaaToState]
        cases hr0 : s.taas.get? d' with
        | none => exact ⟨hg, fun r _ _ hr => ⟨r, hr, rfl, rfl, rfl⟩⟩
        | some r0 =>
          refine ⟨hg, fun r _ _ hr => ?_⟩
          simp only [Dict.get?_set]
          by_cases hdd : d' = d
          · subst hdd
            rw [hr] at hr0
            injection hr0 with hr0
            subst hr0
            exact ⟨_, if_pos rfl, rfl, rfl, rfl⟩
          · exact ⟨r, by rw [if_neg hdd]; exact hr, rfl, rfl, rfl⟩
  · exact ⟨hg, fun r _ _ hr => ⟨r, hr, rfl, rfl, rfl⟩⟩

/-- C70: once a version has a digest it keeps it, and the text, version and time of
ratification of the agreement stay what they are, whatever is requested later by
whomever, unless trustees asked for two versions with the same digest. -/
theorem taa_immutable (H : Bytes → Bytes) (h h' : List Submit) (v d : Bytes) (hg : (Taa.run H h).versions.get? v = some d) :
    (Taa.run H (h ++ h')).versions.get? v = some d ∧
    (Clash H (h ++ h') ∨ ∃ r r' t, (Taa.run H h).taas.get? d = some r ∧ (Taa.run H (h ++ h')).taas.get? d = some r' ∧
      r.version = v ∧ r.text = some t ∧ d = H (v ++ t) ∧
      r'.version = v ∧ r'.text = some t ∧ r'.ratified = r.ratified) := by
  induction h' using snoc_induction with
  | nil =>
    rw [List.append_nil]
    refine ⟨hg, ?_⟩
    by_cases hc : Clash H h
    · exact .inl hc
    · obtain ⟨t, _, b, r, c, c1, c2⟩ := (taa_inv H h hc).made v d hg
      exact .inr ⟨r, r, t, c, c, c1, c2, b, c1, c2, rfl⟩
  | snoc h' e ih =>
    rw [← List.append_assoc, taa_run_snoc]
    obtain ⟨i1, i2⟩ := ih
    have hk := taa_keep_step (H := H) (h := h ++ h') e i1
    refine ⟨hk.1, ?_⟩
    by_cases hc : Clash H (h ++ h' ++ [e])
    · exact .inl hc
    · right
      have hc' : ¬ Clash H (h ++ h') := fun x => hc (clash_mono x)
      obtain ⟨r, r', t, a1, a2, a3, a4, a5, a6, a7, a8⟩ := i2.resolve_left hc'
      obtain ⟨r2, b1, b2, b3, b4⟩ := hk.2 r' (taa_inv H _ hc') hc a2
      exact ⟨r, r2, t, a1, b1, a3, a4, a5, b3.trans a6, b2.trans a7, b4.trans a8⟩

/-- C70: the list of mechanisms of a version does not change either. -/
theorem taa_aml_immutable (H : Bytes → Bytes) (h h' : List Submit) (v : Bytes) (l : List Bytes)
    (hg : (Taa.run H h).amlVersions.get? v = some l) : (Taa.run H (h ++ h')).amlVersions.get? v = some l := by
  induction h' using snoc_induction with
  | nil => rwa [List.append_nil]
  | snoc h' e ih =>
    rw [← List.append_assoc, taa_run_snoc]
    unfold Taa.step
    split
    · next hv =>
      cases ho : e.op with
      | disable => exact ih
      | taa v' t ra x =>
        simp only [updateState]
        split
        · exact ih
        · unfold updateTaaToState; split <;> exact ih
      | aml v' l' =>
        rw [ho] at hv
        simp only [updateState, Dict.get?_set]
        rw [if_neg]
        · exact ih
        · rintro rfl
          unfold dynamicValidation at hv
          split at hv
          · cases hv
          · unfold additionalDynamicValidation at hv
            simp only at hv
            split at hv
            · cases hv
            · next hn => exact hn (by rw [Dict.has_iff]; exact ⟨l, ih⟩)
    · exact ih

/-- C70: the agreement in force exists and is not retired. -/
theorem taa_latest_in_force (H : Bytes → Bytes) (h : List Submit) (d : Bytes) (hl : (Taa.run H h).latest = some d) :
    ∃ r, (Taa.run H h).taas.get? d = some r ∧ r.retired = none := by
  induction h using snoc_induction generalizing d with
  | nil => cases hl
  | snoc h e ih =>
    rw [taa_run_snoc] at hl ⊢
    unfold Taa.step at hl ⊢
    split at hl
    · next hv =>
      cases ho : e.op with
      | aml v l => rw [ho] at hl; exact ih d hl
      | disable => rw [ho] at hl; cases hl
      | taa v t ra x =>
        rw [ho] at hl hv
        simp only [updateState] at hl ⊢
        cases hg : (Taa.run H h).versions.get? v with
        | none =>
          rw [hg] at hl
          simp only [addTaaToState] at hl ⊢
          injection hl with hl
          exact ⟨⟨t, v, ra.getD 0, none, e.seqNo, e.ppTime⟩, by rw [Dict.get?_set, if_pos hl], rfl⟩
        | some d' =>
          rw [hg] at hl
          obtain ⟨l, hl1, hne⟩ := taa_update_accepted hv hg
          simp only [updateTaaToState] at hl ⊢
          cases hr : (Taa.run H h).taas.get? d' with
          | none => rw [hr] at hl; exact ih d hl
          | some r0 =>
            rw [hr] at hl
            have hl' : (Taa.run H h).latest = some d := hl
            obtain ⟨r, a, b⟩ := ih d hl'
            refine ⟨r, ?_, b⟩
            simp only [Dict.get?_set]
            rw [if_neg]
            · exact a
            · rintro rfl
              rw [hl1] at hl'
              injection hl' with hl'
              exact hne hl'
    · exact ih d hl

/-- C70: after an accepted request to disable, no agreement is in force and every one is
retired no later than at the time of that request. -/
theorem taa_disabled (H : Bytes → Bytes) (s : State) (e : Submit) (ho : e.op = .disable) (hl : s.latest ≠ none) (hp : e.ppTime ≠ 0) :
    (Taa.step H s e).latest = none ∧
    ∀ d r, (Taa.step H s e).taas.get? d = some r → ∃ t, r.retired = some t ∧ t ≤ e.ppTime := by
  unfold Taa.step
  have hv : dynamicValidation e.trustee s e.identifier e.op e.ppTime = .ok () := by
    rw [ho]; simp [dynamicValidation, authorize, additionalDynamicValidation, hl]
  rw [hv, ho]
  refine ⟨rfl, ?_⟩
  intro d r hg
  simp only [updateState] at hg
  rw [dict_get_map] at hg
  cases hd : s.taas.get? d with
  | none => rw [hd] at hg; cases hg
  | some r0 =>
    rw [hd] at hg
    injection hg with hg
    subst hg
    have hz : nonZero (some e.ppTime) = some e.ppTime := by
      unfold nonZero
      split
      · next h0 => injection h0 with h0; exact absurd h0 hp
      · rfl
    unfold retireBy
    split
    · exact ⟨e.ppTime, hz, by omega⟩
    · next t ht =>
      split
      · exact ⟨e.ppTime, hz, by omega⟩
      · exact ⟨t, ht, by omega⟩

private def tr (op : Op) (time : Int) (n : Nat) : Submit := ⟨fun _ => true, ascii "T", op, time, n⟩
private def taaHist : List Submit :=
  [tr (.aml (ascii "1") [ascii "click"]) 1600000000 1,
   tr (.taa (ascii "1") (some (ascii "old")) (some 1600000000) none) 1600000100 2,
   tr (.taa (ascii "2") (some (ascii "new")) (some 1600000000) none) 1600000200 3]

/-- After a history of three requests the older agreement can be retired, its text and
the latest agreement cannot be changed. -/
example :
    (Taa.run id taaHist).latest = some (ascii "2new") ∧
    (Taa.run id taaHist).versions.get? (ascii "1") = some (ascii "1old") ∧
    ((Taa.run id (taaHist ++ [tr (.taa (ascii "1") none none (some 1600000300)) 1600000400 4])).taas.get? (ascii "1old")).map (·.retired)
      = some (some 1600000300) ∧
    Taa.run id (taaHist ++ [tr (.taa (ascii "1") (some (ascii "other")) none none) 1600000400 4]) = Taa.run id taaHist ∧
    Taa.run id (taaHist ++ [tr (.taa (ascii "2") none none (some 1600000300)) 1600000400 4]) = Taa.run id taaHist := by
  decide +kernel

/-- A clash needs no collision of the hash: version and text are joined without a
separator, so that a second agreement, with another version and text, replaces the
first under its digest. -/
theorem taa_digest_ambiguous (H : Bytes → Bytes) :
    H (digestInput (some (ascii "0 pay")) (ascii "1")) = H (digestInput (some (ascii " pay")) (ascii "10")) ∧
    let h := [tr (.aml (ascii "1") [ascii "click"]) 1600000000 1,
      tr (.taa (ascii "1") (some (ascii "0 pay")) (some 1600000000) none) 1600000100 2]
    let h' := [tr (.taa (ascii "10") (some (ascii " pay")) (some 1600000000) none) 1600000200 3]
    (Taa.run id h).versions.get? (ascii "1") = (Taa.run id (h ++ h')).versions.get? (ascii "1") ∧
    ((Taa.run id h).taas.get? (ascii "10 pay")).map (·.text) = some (some (ascii "0 pay")) ∧
    ((Taa.run id (h ++ h')).taas.get? (ascii "10 pay")).map (·.text) = some (some (ascii " pay")) := by
  refine ⟨rfl, ?_⟩
  decide +kernel

end Verif.Props
