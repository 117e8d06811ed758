import Verif.Spec.PoolMgr
import Verif.Props.NodeTxn
import Verif.Proofs.Count
/-!
# What a node knows of the validators, with and without restarts (C78)
-/
namespace Verif.Props
open Verif Verif.NodeTxn Verif.PoolMgr Verif.Spec.NodeTxn Verif.Spec.PoolMgr

/-- Services in a record. -/
def pmSvc (rec : Rec) : List Bytes := (svcOf rec).getD []

/-- An address. -/
def pmHa (ha : Fv × Fv) : Option Fv × Option Fv := (some ha.1, some ha.2)

/-- What a registry has at a name. -/
def PmAt (reg : Dict Fv (Fv × Fv)) (a : Fv) (v : Prop) (ok : Fv × Fv → Prop) : Prop :=
  (v → ∃ ha, reg.get? a = some ha ∧ ok ha) ∧ (¬ v → reg.get? a = none)

/-- The address is that of the record, or of the record the node has at the end of the
batch. -/
def PmOk (alt : Bytes → Option Rec) (F : Rec → Option Fv × Option Fv) (nym : Bytes) (rec : Rec) (ha : Fv × Fv) : Prop :=
  F rec = pmHa ha ∨ ∃ rec', alt nym = some rec' ∧ F rec' = pmHa ha

/-- The invariant of a registry. -/
structure PmReg (P : Pool) (alt : Bytes → Option Rec) (F : Rec → Option Fv × Option Fv) (reg : Dict Fv (Fv × Fv)) :
    Prop where
  known : ∀ nym rec a, P.get? nym = some rec → rec.get? .alias = some a →
    PmAt reg a (validator ∈ pmSvc rec) (PmOk alt F nym rec)
  only : ∀ a, (∀ nym rec, P.get? nym = some rec → rec.get? .alias ≠ some a) → reg.get? a = none

/-- The invariant of the services. -/
def PmSvc (P : Pool) (svc : Dict Bytes (List Bytes)) : Prop :=
  ∀ nym, (∀ l, svc.get? nym = some l → ∃ rec, P.get? nym = some rec ∧ pmSvc rec = l) ∧
    (svc.get? nym = none → ∀ rec, P.get? nym = some rec → svcOf rec = none)

/-- The invariant of the names. -/
structure PmIds (P : Pool) (ids : Dict Bytes Fv) : Prop where
  keys : ids.keys = P.keys
  names : ∀ nym, ids.get? nym = (P.get? nym).bind (·.get? .alias)

/-- The invariant. `nk` says of which nodes the key was not changed. -/
structure PmInv (me : Fv) (nk : Bytes → Prop) (P : Pool) (alt : Bytes → Option Rec) (m : Mgr) : Prop where
  ids : PmIds P m.ids
  svc : PmSvc P m.services
  reg : PmReg P alt nodeAddr m.reg
  cli : PmReg P alt clientAddr m.cli
  key : ∀ nym rec a, nk nym → P.get? nym = some rec → rec.get? .alias = some a → validator ∈ pmSvc rec → a ≠ me →
    m.keys.get? a = some nym

theorem pm_keys_set {α β : Type} [DecidableEq α] (d : Dict α β) (k : α) (v : β) :
    (d.set k v).keys = if k ∈ d.keys then d.keys else d.keys ++ [k] := by
  unfold Dict.keys
  induction d with
  | nil => rfl
  | cons e d ih =>
    unfold Dict.set
    by_cases h : e.1 = k
    · rw [if_pos h, if_pos (by rw [List.map_cons, h]; exact List.mem_cons_self)]
      rfl
    · rw [if_neg h, List.map_cons, ih, List.map_cons]
      by_cases h2 : k ∈ d.map Prod.fst
      · rw [if_pos h2, if_pos (List.mem_cons_of_mem _ h2)]
      · rw [if_neg h2, if_neg (fun h3 => by
          rcases List.mem_cons.1 h3 with h3 | h3
          · exact h h3.symm
          · exact h2 h3)]
        rfl

/-- What a transaction changes. -/
structure PmNew (P : Pool) (r : Req) (a : Fv) : Prop where
  given : r.data.get? .alias = some a
  alias : (newRec P r).get? .alias = some a
  old : ∀ rec, P.get? r.dest = some rec → rec.get? .alias = some a
  apart : ∀ nym rec, P.get? nym = some rec → nym ≠ r.dest → rec.get? .alias ≠ some a
  svc : svcOf (newRec P r) = (svcOf r.data).or ((P.get? r.dest).bind svcOf)
  ha : ((∀ f ∈ haFields, r.data.get? f = none) ∧ ∃ rec, P.get? r.dest = some rec ∧
      nodeAddr (newRec P r) = nodeAddr rec ∧ clientAddr (newRec P r) = clientAddr rec) ∨
    ((∀ f ∈ haFields, ∃ v, r.data.get? f = some v) ∧
      nodeAddr (newRec P r) = nodeAddr r.data ∧ clientAddr (newRec P r) = clientAddr r.data)

theorem pm_svc_or {rec data old : Rec} (h : rec.get? .services = (data.get? .services).or (old.get? .services))
    (hl : ∀ v, data.get? .services = some v → ∃ l, v = .list l) : svcOf rec = (svcOf data).or (svcOf old) := by
  unfold svcOf
  rw [h]
  cases hd : data.get? .services with
  | none => rfl
  | some v =>
    obtain ⟨l, rfl⟩ := hl v hd
    rfl

theorem pm_services_list {env : Env} {data : Rec} (h : schemaOk env data = true) :
    ∀ v, data.get? .services = some v → ∃ l, v = .list l := by
  intro v hv
  have := (schemaOk_iff h).2.1 _ (Dict.mem_of_get? hv)
  cases v with
  | list l => exact ⟨l, rfl⟩
  | null => simp [fieldOk] at this
  | str s => simp [fieldOk] at this
  | int i => simp [fieldOk] at this

theorem pm_new {env : Env} {P : Pool} {r : Req} (hu : Unique P) (hc : check env P r = none) : ∃ a, PmNew P r a := by
  have hs := (nt_check_none hc).1
  have hl := pm_services_list hs
  obtain ⟨a, ha⟩ := (schemaOk_iff hs).1
  refine ⟨a, ?_⟩
  rcases nt_passes hu hc with h | ⟨old, h⟩
  · have hf := newRec_added_full h
    have hc := nodeAddr_congr (a := newRec P r) (b := r.data) fun f h => hf f (by simp [h])
    refine ⟨ha, by rw [hf .alias (by simp), ha], ?_, ?_, ?_, .inr ⟨fun f hf => h.full f (by simp [hf]), hc⟩⟩
    · intro rec hr; rw [h.absent] at hr; cases hr
    · intro nym rec hr _ e
      exact (h.apart nym rec hr).1 (by rw [ha, e])
    · rw [h.absent, Option.bind_none]
      rw [pm_svc_or (old := []) (by rw [newRec_added h]; rfl) hl]
      rfl
  · refine ⟨ha, by rw [newRec_alias hu h, ← h.sameAlias, ha], ?_, ?_, ?_, ?_⟩
    · intro rec hr; rw [h.present] at hr; cases hr; rw [← h.sameAlias, ha]
    · intro nym rec hr hne e
      exact hne (hu.alias _ _ _ _ hr h.present (by simp only [e, ← h.sameAlias, ha]))
    · rw [h.present, Option.bind_some, pm_svc_or (newRec_updated hu h .services) hl]
    · rcases h.ha with h1 | h1
      · exact .inl ⟨h1, old, h.present, nodeAddr_congr fun f hf => by rw [newRec_updated hu h, h1 f hf]; rfl⟩
      · refine .inr ⟨h1.1, nodeAddr_congr fun f hf => ?_⟩
        obtain ⟨v, hv⟩ := h1.1 f hf
        rw [newRec_updated hu h, hv]; rfl

theorem PmReg.set {P : Pool} {alt : Bytes → Option Rec} {F : Rec → Option Fv × Option Fv} {reg reg' : Dict Fv (Fv × Fv)}
    {r : Req} {a : Fv} (h : PmReg P alt F reg) (hn : PmNew P r a)
    (hother : ∀ b, b ≠ a → reg'.get? b = reg.get? b)
    (hat : PmAt reg' a (validator ∈ pmSvc (newRec P r)) (PmOk alt F r.dest (newRec P r))) :
    PmReg (updateState P r) alt F reg' := by
  refine ⟨fun nym rec b hr hb => ?_, fun b hb => ?_⟩
  · unfold updateState at hr
    rw [Dict.get?_set] at hr
    split at hr
    · next e =>
      cases hr; subst e
      rw [hn.alias] at hb; cases hb
      exact hat
    · next e =>
      have hba : b ≠ a := by
        intro e2; subst e2
        exact hn.apart nym rec hr (fun e3 => e e3.symm) hb
      have := h.known nym rec b hr hb
      unfold PmAt at this ⊢
      rw [hother b hba]
      exact this
  · have hba : b ≠ a := by
      intro e; subst e
      exact hb r.dest (newRec P r) (by unfold updateState; rw [Dict.get?_set, if_pos rfl]) hn.alias
    rw [hother b hba]
    refine h.only b fun nym rec hr hb2 => ?_
    by_cases e : nym = r.dest
    · subst e
      rw [hn.old rec hr] at hb2; cases hb2
      exact hba rfl
    · refine hb nym rec ?_ hb2
      unfold updateState
      rw [Dict.get?_set, if_neg (fun e2 => e e2.symm)]
      exact hr

theorem pmIds_step {P : Pool} {r : Req} {a : Fv} {ids : Dict Bytes Fv} (h : PmIds P ids) (hn : PmNew P r a) :
    ∃ ids', setId ids r.dest a = .ok ids' ∧ PmIds (updateState P r) ids' ∧ ids'.get? r.dest = some a := by
  unfold setId
  have hnm := h.names r.dest
  cases hp : P.get? r.dest with
  | none =>
    rw [hp] at hnm
    rw [hnm]
    refine ⟨_, rfl, ⟨?_, fun nym => ?_⟩, by rw [Dict.get?_set, if_pos rfl]⟩
    · unfold updateState
      rw [pm_keys_set, pm_keys_set, h.keys]
    · unfold updateState
      rw [Dict.get?_set, Dict.get?_set]
      split
      · rw [Option.bind_some, hn.alias]
      · exact h.names nym
  | some rec =>
    rw [hp, Option.bind_some, hn.old rec hp] at hnm
    rw [hnm]
    refine ⟨ids, if_pos rfl, ⟨?_, fun nym => ?_⟩, hnm⟩
    · unfold updateState
      rw [pm_keys_set, if_pos ((Dict.mem_keys _ _).2 ⟨rec, hp⟩), h.keys]
    · unfold updateState
      rw [Dict.get?_set]
      split
      · next e => subst e; rw [Option.bind_some, hn.alias, hnm]
      · exact h.names nym

theorem pmSvc_set {P : Pool} {r : Req} {svc svc' : Dict Bytes (List Bytes)} (h : PmSvc P svc)
    (hother : ∀ nym, nym ≠ r.dest → svc'.get? nym = svc.get? nym)
    (hat : svc'.get? r.dest = some (pmSvc (newRec P r)) ∨ svc'.get? r.dest = none ∧ svcOf (newRec P r) = none) :
    PmSvc (updateState P r) svc' := by
  intro nym
  by_cases e : nym = r.dest
  · subst e
    unfold updateState
    rw [Dict.get?_set, if_pos rfl]
    rcases hat with hat | ⟨hat, hs⟩
    · rw [hat]
      exact ⟨fun l hl => ⟨_, rfl, Option.some.inj hl⟩, fun h => by cases h⟩
    · rw [hat]
      exact ⟨fun l hl => (by cases hl), fun _ rec hr => (by cases hr; exact hs)⟩
  · rw [hother nym e]
    unfold updateState
    rw [Dict.get?_set, if_neg (fun e2 => e e2.symm)]
    exact h nym

theorem pm_index {α β : Type} [DecidableEq α] {d : Dict α β} {k : α} {v : β} (h : d.get? k = some v) :
    index d k = .ok v := by unfold index; rw [h]

theorem pm_addr {data : Rec} {ip port : Field} {ha : Fv × Fv} (h : (data.get? ip, data.get? port) = pmHa ha) :
    addr data ip port = .ok ha := by
  unfold pmHa at h
  injection h with h1 h2
  unfold addr
  rw [pm_index h1, pm_index h2]
  rfl

/-- The addresses of a record with all fields. -/
theorem pm_full {data : Rec} (h : ∀ f ∈ haFields, ∃ v, data.get? f = some v) :
    ∃ n c, nodeAddr data = pmHa n ∧ clientAddr data = pmHa c := by
  obtain ⟨a, ha⟩ := h .nodeIp (by simp [haFields])
  obtain ⟨b, hb⟩ := h .nodePort (by simp [haFields])
  obtain ⟨c, hc⟩ := h .clientIp (by simp [haFields])
  obtain ⟨d, hd⟩ := h .clientPort (by simp [haFields])
  refine ⟨(a, b), (c, d), ?_, ?_⟩
  · unfold nodeAddr; rw [ha, hb]; rfl
  · unfold clientAddr; rw [hc, hd]; rfl

theorem pm_connect {m : Mgr} {a : Fv} {nym : Bytes} {data : Rec} {n c : Fv × Fv} (hn : nodeAddr data = pmHa n)
    (hc : clientAddr data = pmHa c) : connectNewRemote m a nym data =
      .ok { m with reg := m.reg.set a n, cli := m.cli.set a c, keys := m.keys.set a nym } := by
  unfold connectNewRemote
  rw [pm_addr hn, pm_addr hc]
  rfl

theorem pm_addNew {self : Fv} {m : Mgr} {a : Fv} {r : Req} {n c : Fv × Fv} (hn : nodeAddr r.data = pmHa n)
    (hc : clientAddr r.data = pmHa c) : ∃ keys, addNew self m a r =
      .ok { m with reg := m.reg.set a n, cli := m.cli.set a c, keys := keys } ∧
      (a ≠ self → keys.get? a = some r.dest) ∧ ∀ b, b ≠ a → keys.get? b = m.keys.get? b := by
  unfold addNew
  split
  · next e =>
    rw [pm_addr hn, pm_addr hc]
    exact ⟨_, rfl, fun h => absurd e h, fun _ _ => rfl⟩
  · rw [pm_connect hn hc]
    exact ⟨_, rfl, fun _ => by rw [Dict.get?_set, if_pos rfl], fun b hb => by
      rw [Dict.get?_set, if_neg (fun e => hb e.symm)]⟩

/-- What holds of the state the pool manager reads. -/
def PmPool (P : Pool) (alt : Bytes → Option Rec) (pool : Pool) : Prop :=
  ∀ nym rec, P.get? nym = some rec → ∃ rec', pool.get? nym = some rec' ∧ (∀ f ∈ haFields, ∃ v, rec'.get? f = some v) ∧
    (rec' = rec ∨ alt nym = some rec')

theorem pm_merge_full {info data : Rec} (h : ∀ f ∈ haFields, ∃ v, info.get? f = some v) :
    ∀ f ∈ haFields, ∃ v, (merge info data).get? f = some v := by
  intro f hf
  obtain ⟨v, hv⟩ := h f hf
  rw [nt_get?_merge, hv]
  cases data.get? f <;> exact ⟨_, rfl⟩

theorem pm_set_set {α β : Type} [DecidableEq α] (d : Dict α β) (k : α) (x y : β) : (d.set k x).set k y = d.set k y := by
  induction d with
  | nil => simp [Dict.set]
  | cons z d ih =>
    by_cases h : z.1 = k
    · simp only [Dict.set, h, if_true]
    · simp only [Dict.set, h, if_false, ih]

theorem pm_promote {self : Fv} {m : Mgr} {pool : Pool} {r : Req} {a : Fv} {info : Rec} (hid : m.ids.get? r.dest = some a)
    (hp : pool.get? r.dest = some info) (hf : ∀ f ∈ haFields, ∃ v, info.get? f = some v) :
    ∃ n c keys, promote self m pool r = .ok { m with reg := m.reg.set a n, cli := m.cli.set a c, keys := keys } ∧
      ((∀ f ∈ haFields, r.data.get? f = none) → nodeAddr info = pmHa n ∧ clientAddr info = pmHa c) ∧
      (a ≠ self → keys.get? a = some r.dest) ∧ ∀ b, b ≠ a → keys.get? b = m.keys.get? b := by
  obtain ⟨n0, c0, hn0, hc0⟩ := pm_full hf
  obtain ⟨n1, c1, hn1, hc1⟩ := pm_full (pm_merge_full (data := r.data) hf)
  have hget : getRec pool r.dest = info := by unfold getRec; rw [hp]; rfl
  unfold promote
  rw [pm_index hid, hget]
  simp only [bind, Except.bind]
  rw [pm_addr hn0, pm_addr hc0]
  simp only
  split
  · next e =>
    rw [pm_connect hn1 hc1]
    refine ⟨n1, c1, m.keys.set a r.dest, ?_, fun hno => ?_, fun _ => by rw [Dict.get?_set, if_pos rfl], fun b hb => by
      rw [Dict.get?_set, if_neg (fun e => hb e.symm)]⟩
    · simp only [pm_set_set]
    · have := nodeAddr_congr (a := merge info r.data) (b := info) fun f hf => by
        rw [nt_get?_merge, hno f hf]; rfl
      rw [← this.1, ← this.2]
      exact ⟨hn1, hc1⟩
  · next e =>
    exact ⟨n0, c0, m.keys, rfl, fun _ => ⟨hn0, hc0⟩, fun h => absurd (Classical.not_not.1 e).symm h, fun _ _ => rfl⟩

theorem pm_servicesChanged {self : Fv} {nk : Bytes → Prop} {P : Pool} {alt : Bytes → Option Rec} {m : Mgr} {pool : Pool}
    {r : Req} {a : Fv} {rec : Rec} {l : List Bytes} (hid : m.ids.get? r.dest = some a) (hn : PmNew P r a)
    (hr : P.get? r.dest = some rec) (hsv : m.services.get? r.dest = some (pmSvc rec))
    (hreg : PmReg P alt nodeAddr m.reg) (hcli : PmReg P alt clientAddr m.cli)
    (hkey : nk r.dest → validator ∈ pmSvc rec → a ≠ self → m.keys.get? a = some r.dest)
    (hpool : PmPool P alt pool) :
    ∃ m1, servicesChanged self m pool r l = .ok m1 ∧ m1.ids = m.ids ∧ m1.services = m.services ∧
      (∀ b, b ≠ a → m1.reg.get? b = m.reg.get? b) ∧ (∀ b, b ≠ a → m1.cli.get? b = m.cli.get? b) ∧
      (∀ b, b ≠ a → m1.keys.get? b = m.keys.get? b) ∧
      (nk r.dest → validator ∈ l → a ≠ self → m1.keys.get? a = some r.dest) ∧
      PmAt m1.reg a (validator ∈ l) (fun ha => (∀ f ∈ haFields, r.data.get? f = none) → PmOk alt nodeAddr r.dest rec ha) ∧
      PmAt m1.cli a (validator ∈ l) (fun ha => (∀ f ∈ haFields, r.data.get? f = none) → PmOk alt clientAddr r.dest rec ha) := by
  have hR := hreg.known r.dest rec a hr (hn.old rec hr)
  have hC := hcli.known r.dest rec a hr (hn.old rec hr)
  unfold servicesChanged
  simp only
  rw [hsv, Option.getD_some]
  split
  · next h =>
    obtain ⟨info, hp, hf, halt⟩ := hpool _ _ hr
    obtain ⟨n, c, keys, he, hnc, hk1, hk2⟩ := pm_promote (self := self) hid hp hf
    refine ⟨_, he, rfl, rfl, ?_, ?_, hk2, fun _ _ h => hk1 h, ?_, ?_⟩
    · intro b hb; simp only [Dict.get?_set, if_neg (fun e : a = b => hb e.symm)]
    · intro b hb; simp only [Dict.get?_set, if_neg (fun e : a = b => hb e.symm)]
    · refine ⟨fun _ => ⟨n, by simp only [Dict.get?_set, if_true], fun hno => ?_⟩, fun h2 => absurd h.1 h2⟩
      rcases halt with h3 | h3
      · subst h3; exact .inl (hnc hno).1
      · exact .inr ⟨info, h3, (hnc hno).1⟩
    · refine ⟨fun _ => ⟨c, by simp only [Dict.get?_set, if_true], fun hno => ?_⟩, fun h2 => absurd h.1 h2⟩
      rcases halt with h3 | h3
      · subst h3; exact .inl (hnc hno).2
      · exact .inr ⟨info, h3, (hnc hno).2⟩
  · next h =>
    split
    · next h2 =>
      obtain ⟨n, hn1, _⟩ := hR.1 h2.1
      obtain ⟨c, hc1, _⟩ := hC.1 h2.1
      unfold demote
      rw [pm_index hid]
      simp only [bind, Except.bind]
      rw [pm_index hn1, pm_index hc1]
      refine ⟨_, rfl, rfl, rfl, ?_, ?_, fun _ _ => rfl, fun _ h3 => absurd h3 h2.2, ?_, ?_⟩
      · intro b hb; simp only [Dict.get?_erase, if_neg (fun e : a = b => hb e.symm)]
      · intro b hb; simp only [Dict.get?_erase, if_neg (fun e : a = b => hb e.symm)]
      · exact ⟨fun h3 => absurd h3 h2.2, fun _ => by simp only [Dict.get?_erase, if_true]⟩
      · exact ⟨fun h3 => absurd h3 h2.2, fun _ => by simp only [Dict.get?_erase, if_true]⟩
    · next h2 =>
      have hiff : validator ∈ l ↔ validator ∈ pmSvc rec :=
        ⟨fun h3 => Classical.byContradiction fun h4 => h ⟨h3, h4⟩,
         fun h3 => Classical.byContradiction fun h4 => h2 ⟨h3, h4⟩⟩
      refine ⟨m, rfl, rfl, rfl, fun _ _ => rfl, fun _ _ => rfl, fun _ _ => rfl,
        fun h3 h4 => hkey h3 (hiff.1 h4), ?_, ?_⟩
      · refine ⟨fun h3 => ?_, fun h3 => hR.2 fun h4 => h3 (hiff.2 h4)⟩
        obtain ⟨ha, h5, h6⟩ := hR.1 (hiff.1 h3)
        exact ⟨ha, h5, fun _ => h6⟩
      · refine ⟨fun h3 => ?_, fun h3 => hC.2 fun h4 => h3 (hiff.2 h4)⟩
        obtain ⟨ha, h5, h6⟩ := hC.1 (hiff.1 h3)
        exact ⟨ha, h5, fun _ => h6⟩

theorem pm_changeHa {data : Rec} {ip port : Field} {n old : Fv × Fv} (h : (data.get? ip, data.get? port) = pmHa n) :
    changeHa old (data.get? ip) (data.get? port) = n := by
  unfold pmHa at h
  injection h with h1 h2
  rw [h1, h2]; rfl

theorem pm_any {data : Rec} (h : ∀ f ∈ haFields, data.get? f = none) : haFields.any (fun f => data.has f) = false := by
  rw [List.any_eq_false]
  intro f hf h2
  obtain ⟨v, hv⟩ := (Dict.has_iff _ _).1 h2
  rw [h f hf] at hv; cases hv

theorem pm_any' {data : Rec} (h : ∀ f ∈ haFields, ∃ v, data.get? f = some v) :
    haFields.any (fun f => data.has f) = true := by
  rw [List.any_eq_true]
  exact ⟨.nodeIp, by simp [haFields], (Dict.has_iff _ _).2 (h .nodeIp (by simp [haFields]))⟩

theorem pm_rest {self : Fv} {nk : Bytes → Prop} {P : Pool} {alt : Bytes → Option Rec} {m1 : Mgr}
    {r : Req} {a : Fv} {rec : Rec} {v : Prop} (hid : m1.ids.get? r.dest = some a) (hn : PmNew P r a)
    (hr : P.get? r.dest = some rec) (hnk : nk r.dest → r.verkey = none)
    (hR : PmAt m1.reg a v (fun ha => (∀ f ∈ haFields, r.data.get? f = none) → PmOk alt nodeAddr r.dest rec ha))
    (hC : PmAt m1.cli a v (fun ha => (∀ f ∈ haFields, r.data.get? f = none) → PmOk alt clientAddr r.dest rec ha)) :
    ∃ m2, updateListed self m1 a r = .ok m2 ∧ m2.ids = m1.ids ∧ m2.services = m1.services ∧
      (∀ b, b ≠ a → m2.reg.get? b = m1.reg.get? b) ∧ (∀ b, b ≠ a → m2.cli.get? b = m1.cli.get? b) ∧
      (∀ b, b ≠ a → m2.keys.get? b = m1.keys.get? b) ∧ (nk r.dest → m2.keys = m1.keys) ∧
      PmAt m2.reg a v (PmOk alt nodeAddr r.dest (newRec P r)) ∧
      PmAt m2.cli a v (PmOk alt clientAddr r.dest (newRec P r)) := by
  have keys : ∀ m2 : Mgr, m2.ids = m1.ids → m2.keys = m1.keys → m1.reg.has a = true →
      updateHa m1 r = .ok m2 →
      ∃ ks, updateListed self m1 a r = .ok { m2 with keys := ks } ∧ (∀ b, b ≠ a → ks.get? b = m1.keys.get? b) ∧
        (nk r.dest → ks = m1.keys) := by
    intro m2 hi hk hh he
    unfold updateListed
    rw [if_pos hh, he]
    simp only [bind, Except.bind]
    unfold updateKey
    cases hv : r.verkey with
    | none => exact ⟨m2.keys, rfl, fun b _ => by rw [hk], fun _ => hk⟩
    | some key =>
      simp only
      unfold keysChanged
      rw [hi, pm_index hid]
      simp only [bind, Except.bind]
      split
      · exact ⟨m2.keys, by rw [← hi]; rfl, fun b _ => by rw [hk], fun _ => hk⟩
      · refine ⟨m2.keys.set a key, by rw [← hi]; rfl, fun b hb => by
          rw [Dict.get?_set, if_neg (fun e => hb e.symm), hk], fun h => ?_⟩
        rw [hnk h] at hv; cases hv
  by_cases hv : v
  · obtain ⟨n, hn1, hnok⟩ := hR.1 hv
    obtain ⟨c, hc1, hcok⟩ := hC.1 hv
    have hh : m1.reg.has a = true := (Dict.has_iff _ _).2 ⟨n, hn1⟩
    rcases hn.ha with ⟨hno, rec2, hr2, hna, hca⟩ | ⟨hall, hna, hca⟩
    · rw [hr] at hr2; cases hr2
      obtain ⟨ks, he, hk1, hk2⟩ := keys m1 rfl rfl hh (by unfold updateHa; rw [pm_any hno]; rfl)
      refine ⟨_, he, rfl, rfl, fun _ _ => rfl, fun _ _ => rfl, hk1, hk2, ?_, ?_⟩
      · refine ⟨fun _ => ⟨n, hn1, ?_⟩, fun h => absurd hv h⟩
        rcases hnok hno with h | h
        · exact .inl (hna.trans h)
        · exact .inr h
      · refine ⟨fun _ => ⟨c, hc1, ?_⟩, fun h => absurd hv h⟩
        rcases hcok hno with h | h
        · exact .inl (hca.trans h)
        · exact .inr h
    · obtain ⟨n1, c1, h1, h2⟩ := pm_full hall
      have hch : haChanged m1 r = .ok { m1 with reg := m1.reg.set a n1, cli := m1.cli.set a c1 } := by
        unfold haChanged
        rw [pm_index hid]
        simp only [bind, Except.bind]
        rw [pm_index hn1, pm_index hc1]
        simp only
        rw [pm_changeHa h1, pm_changeHa h2]
        rfl
      obtain ⟨ks, he, hk1, hk2⟩ := keys { m1 with reg := m1.reg.set a n1, cli := m1.cli.set a c1 } rfl rfl hh
        (by unfold updateHa; rw [pm_any' hall, if_pos rfl, hch])
      refine ⟨_, he, rfl, rfl, ?_, ?_, hk1, hk2, ?_, ?_⟩
      · intro b hb; simp only [Dict.get?_set, if_neg (fun e : a = b => hb e.symm)]
      · intro b hb; simp only [Dict.get?_set, if_neg (fun e : a = b => hb e.symm)]
      · exact ⟨fun _ => ⟨n1, by simp only [Dict.get?_set, if_true], .inl (hna.trans h1)⟩, fun h => absurd hv h⟩
      · exact ⟨fun _ => ⟨c1, by simp only [Dict.get?_set, if_true], .inl (hca.trans h2)⟩, fun h => absurd hv h⟩
  · have hno : m1.reg.get? a = none := hR.2 hv
    refine ⟨m1, ?_, rfl, rfl, fun _ _ => rfl, fun _ _ => rfl, fun _ _ => rfl, fun _ => rfl,
      ⟨fun h => absurd h hv, fun _ => hno⟩, ⟨fun h => absurd h hv, fun _ => hC.2 hv⟩⟩
    unfold updateListed
    rw [(Dict.has_false_iff _ _).2 hno]
    rfl

theorem pmSvc_new {P : Pool} {r : Req} {a : Fv} (hn : PmNew P r a) :
    pmSvc (newRec P r) = ((svcOf r.data).or ((P.get? r.dest).bind svcOf)).getD [] := by unfold pmSvc; rw [hn.svc]

/-- One transaction. -/
theorem PmInv.onChange {env : Env} {self : Fv} {nk : Bytes → Prop} {P : Pool} {alt : Bytes → Option Rec} {m : Mgr}
    {pool : Pool} {r : Req} (h : PmInv self nk P alt m) (hu : Unique P) (hc : check env P r = none)
    (hpool : PmPool P alt pool) (hnk : nk r.dest → r.verkey = none)
    (hst : ∀ rec l, P.get? r.dest = some rec → svcOf r.data = some l → validator ∈ l →
      (∃ v, rec.get? .services = some v) ∨ ∃ v, r.data.get? .nodeIp = some v) 
    (hsl : ∀ rec v, P.get? r.dest = some rec → rec.get? .services = some v → ∃ l, v = .list l) :
    ∃ m', onChange self pool m r = .ok m' ∧ PmInv self nk (updateState P r) alt m' := by
  obtain ⟨a, hn⟩ := pm_new hu hc
  obtain ⟨ids, hids, hI, hid⟩ := pmIds_step h.ids hn
  have key' : ∀ ks : Dict Fv Bytes, (∀ b, b ≠ a → ks.get? b = m.keys.get? b) →
      (nk r.dest → validator ∈ pmSvc (newRec P r) → a ≠ self → ks.get? a = some r.dest) →
      ∀ nym rec b, nk nym → (updateState P r).get? nym = some rec → rec.get? .alias = some b → validator ∈ pmSvc rec →
        b ≠ self → ks.get? b = some nym := by
    intro ks h1 h2 nym rec b hk hr hb hv hs
    unfold updateState at hr
    rw [Dict.get?_set] at hr
    split at hr
    · next e =>
      cases hr; subst e
      rw [hn.alias] at hb; cases hb
      exact h2 hk hv hs
    · next e =>
      rw [h1 b (fun e2 => hn.apart nym rec hr (fun e3 => e e3.symm) (by rw [← e2]; exact hb))]
      exact h.key nym rec b hk hr hb hv hs
  unfold PoolMgr.onChange
  rw [pm_index hn.given]
  simp only [bind, Except.bind]
  rw [hids]
  simp only
  unfold addOrUpdate
  simp only
  cases hs : m.services.get? r.dest with
  | none =>
    rw [(Dict.has_false_iff _ _).2 hs]
    simp only [Bool.not_false, if_true]
    have hos : (P.get? r.dest).bind svcOf = none := by
      cases hp : P.get? r.dest with
      | none => rfl
      | some rec => exact (h.svc r.dest).2 hs rec hp
    have hsv : pmSvc (newRec P r) = (svcOf r.data).getD [] := by
      rw [pmSvc_new hn, hos]; cases svcOf r.data <;> rfl
    have hsvc : PmSvc (updateState P r) (m.services.set r.dest ((svcOf r.data).getD [])) :=
      pmSvc_set h.svc (fun nym hne => by rw [Dict.get?_set, if_neg (fun e => hne e.symm)])
        (.inl (by rw [Dict.get?_set, if_pos rfl, hsv]))
    unfold addNode
    by_cases hv : validator ∈ (svcOf r.data).getD []
    · rw [if_pos hv]
      have hall : (∀ f ∈ haFields, ∃ v, r.data.get? f = some v) ∧
          nodeAddr (newRec P r) = nodeAddr r.data ∧ clientAddr (newRec P r) = clientAddr r.data := by
        rcases hn.ha with ⟨hno, rec, hr, _⟩ | h2
        · exfalso
          cases hl : svcOf r.data with
          | none => rw [hl] at hv; simp at hv
          | some l =>
            rw [hl] at hv
            rcases hst rec l hr hl hv with ⟨v, h3⟩ | ⟨v, h3⟩
            · rw [hr, Option.bind_some] at hos
              obtain ⟨l', rfl⟩ := hsl rec v hr h3
              unfold svcOf at hos
              rw [h3] at hos; cases hos
            · rw [hno .nodeIp (by simp [haFields])] at h3; cases h3
        · exact h2
      obtain ⟨n, c, h1, h2⟩ := pm_full hall.1
      obtain ⟨ks, he, hk1, hk2⟩ := pm_addNew (self := self) (m := { m with ids := ids }) (a := a) h1 h2
      rw [he]
      refine ⟨_, rfl, hI, hsvc, h.reg.set hn ?_ ?_, h.cli.set hn ?_ ?_, key' ks hk2 fun _ _ h3 => hk1 h3⟩
      · intro b hb; simp only [Dict.get?_set, if_neg (fun e : a = b => hb e.symm)]
      · exact ⟨fun _ => ⟨n, by simp only [Dict.get?_set, if_true], .inl (hall.2.1.trans h1)⟩,
          fun h3 => absurd (by rw [hsv]; exact hv) h3⟩
      · intro b hb; simp only [Dict.get?_set, if_neg (fun e : a = b => hb e.symm)]
      · exact ⟨fun _ => ⟨c, by simp only [Dict.get?_set, if_true], .inl (hall.2.2.trans h2)⟩,
          fun h3 => absurd (by rw [hsv]; exact hv) h3⟩
    · rw [if_neg hv]
      have hnot : validator ∉ pmSvc (newRec P r) := by rw [hsv]; exact hv
      have none_at : ∀ {F reg}, PmReg P alt F reg → reg.get? a = none := by
        intro F reg hreg
        cases hp : P.get? r.dest with
        | none =>
          refine hreg.only a fun nym rec hr => ?_
          by_cases e : nym = r.dest
          · subst e; rw [hp] at hr; cases hr
          · exact hn.apart nym rec hr e
        | some rec =>
          refine (hreg.known r.dest rec a hp (hn.old rec hp)).2 fun h3 => ?_
          rw [hp, Option.bind_some] at hos
          unfold pmSvc at h3
          rw [hos] at h3; simp at h3
      refine ⟨_, rfl, hI, hsvc, h.reg.set hn (fun _ _ => rfl) ⟨fun h3 => absurd h3 hnot, fun _ => none_at h.reg⟩,
        h.cli.set hn (fun _ _ => rfl) ⟨fun h3 => absurd h3 hnot, fun _ => none_at h.cli⟩,
        key' _ (fun _ _ => rfl) fun _ h3 => absurd h3 hnot⟩
  | some l0 =>
    obtain ⟨rec, hr, hrs⟩ := (h.svc r.dest).1 l0 hs
    subst hrs
    rw [(Dict.has_iff _ _).2 ⟨_, hs⟩]
    simp only [Bool.not_true, Bool.false_eq_true, if_false]
    have hR := h.reg.known r.dest rec a hr (hn.old rec hr)
    have hC := h.cli.known r.dest rec a hr (hn.old rec hr)
    have hkey : nk r.dest → validator ∈ pmSvc rec → a ≠ self → m.keys.get? a = some r.dest :=
      fun h1 h2 h3 => h.key r.dest rec a h1 hr (hn.old rec hr) h2 h3
    have first : ∃ m1, updateServices self { m with ids := ids } pool r = .ok m1 ∧ m1.ids = ids ∧ m1.services = m.services ∧
        (∀ b, b ≠ a → m1.reg.get? b = m.reg.get? b) ∧ (∀ b, b ≠ a → m1.cli.get? b = m.cli.get? b) ∧
        (∀ b, b ≠ a → m1.keys.get? b = m.keys.get? b) ∧
        (nk r.dest → validator ∈ pmSvc (newRec P r) → a ≠ self → m1.keys.get? a = some r.dest) ∧
        PmAt m1.reg a (validator ∈ pmSvc (newRec P r))
          (fun ha => (∀ f ∈ haFields, r.data.get? f = none) → PmOk alt nodeAddr r.dest rec ha) ∧
        PmAt m1.cli a (validator ∈ pmSvc (newRec P r))
          (fun ha => (∀ f ∈ haFields, r.data.get? f = none) → PmOk alt clientAddr r.dest rec ha) := by
      unfold updateServices
      cases hl : svcOf r.data with
      | none =>
        have e : pmSvc (newRec P r) = pmSvc rec := by rw [pmSvc_new hn, hl, hr]; rfl
        rw [e]
        refine ⟨_, rfl, rfl, rfl, fun _ _ => rfl, fun _ _ => rfl, fun _ _ => rfl, hkey,
          ⟨fun h3 => ?_, hR.2⟩, ⟨fun h3 => ?_, hC.2⟩⟩
        · obtain ⟨ha, h4, h5⟩ := hR.1 h3; exact ⟨ha, h4, fun _ => h5⟩
        · obtain ⟨ha, h4, h5⟩ := hC.1 h3; exact ⟨ha, h4, fun _ => h5⟩
      | some l =>
        have e : pmSvc (newRec P r) = l := by rw [pmSvc_new hn, hl]; rfl
        rw [e]
        exact pm_servicesChanged (m := { m with ids := ids }) hid hn hr hs h.reg h.cli hkey hpool
    obtain ⟨m1, he1, hi1, hs1, hr1, hc1, hk1, hka1, hR1, hC1⟩ := first
    obtain ⟨m2, he2, hi2, hs2, hr2, hc2, hk2, hka2, hR2, hC2⟩ :=
      pm_rest (self := self) (nk := nk) (by rw [hi1]; exact hid) hn hr hnk hR1 hC1
    unfold updateNode
    rw [he1]
    simp only [bind, Except.bind]
    rw [he2]
    refine ⟨_, rfl, by rw [hi2, hi1]; exact hI, ?_, h.reg.set hn (fun b hb => by rw [hr2 b hb, hr1 b hb]) hR2,
      h.cli.set hn (fun b hb => by rw [hc2 b hb, hc1 b hb]) hC2,
      key' _ (fun b hb => by rw [hk2 b hb, hk1 b hb]) fun h3 h4 h5 => by rw [hka2 h3]; exact hka1 h3 h4 h5⟩
    simp only [hs2, hs1]
    refine pmSvc_set h.svc (fun nym hne => ?_) (.inl ?_)
    · unfold setServices
      cases svcOf r.data with
      | none => rfl
      | some l => simp only [Dict.get?_set, if_neg (fun e : r.dest = nym => hne e.symm)]
    · rw [pmSvc_new hn, hr, Option.bind_some]
      cases svcOf r.data with
      | none => exact hs
      | some l => simp only [setServices, Dict.get?_set, if_true]; rfl

/-- What holds of the pool states. -/
structure PmGood (P : Pool) : Prop where
  unique : Unique P
  lists : ∀ nym rec v, P.get? nym = some rec → rec.get? .services = some v → ∃ l, v = .list l

theorem PmGood.step {env : Env} {P : Pool} {r : Req} (h : PmGood P) (hc : check env P r = none) :
    PmGood (updateState P r) := by
  refine ⟨unique_step h.unique hc, fun nym rec v hr hv => ?_⟩
  unfold updateState at hr
  rw [Dict.get?_set] at hr
  split at hr
  · cases hr
    have hl := pm_services_list (nt_check_none hc).1
    rcases nt_passes h.unique hc with h2 | ⟨old, h2⟩
    · rw [newRec_added h2] at hv
      cases hd : r.data.get? .services with
      | none => rw [hd] at hv; cases hv
      | some w => rw [hd] at hv; cases hv; exact hl _ hd
    · rw [newRec_updated h.unique h2] at hv
      cases hd : r.data.get? .services with
      | none => rw [hd] at hv; exact h.lists _ _ v h2.present hv
      | some w => rw [hd] at hv; cases hv; exact hl _ hd
  · exact h.lists nym rec v hr hv

theorem pm_applyAll_snoc (p : Pool) (l : List Req) (r : Req) : applyAll p (l ++ [r]) = updateState (applyAll p l) r := by
  unfold applyAll; rw [List.foldl_append]; rfl

theorem pm_applyAll_append (p : Pool) (l k : List Req) : applyAll p (l ++ k) = applyAll (applyAll p l) k := by
  unfold applyAll; rw [List.foldl_append]

theorem pm_accepted_prefix {env : Env} {l k : List Req} (h : Accepted env (l ++ k)) : Accepted env l := by
  intro pre r post e
  exact h pre r (post ++ k) (by rw [e]; simp)

theorem pm_good {env : Env} {l : List Req} (h : Accepted env l) : PmGood (applyAll [] l) := by
  induction l using snoc_induction with
  | nil => exact ⟨unique_nil, fun _ _ _ h => by cases h⟩
  | snoc l r ih =>
    rw [pm_applyAll_snoc]
    exact (ih (pm_accepted_prefix h)).step (h l r [] rfl)

theorem pm_cases {P : Pool} {r : Req} {a : Fv} (hn : PmNew P r a) {nym : Bytes} {rec : Rec} {b : Fv}
    (hr : (updateState P r).get? nym = some rec) (hb : rec.get? .alias = some b) :
    (nym = r.dest ∧ rec = newRec P r ∧ b = a) ∨ (nym ≠ r.dest ∧ P.get? nym = some rec ∧ b ≠ a) := by
  unfold updateState at hr
  rw [Dict.get?_set] at hr
  split at hr
  · next e =>
    cases hr
    rw [hn.alias] at hb
    exact .inl ⟨e.symm, rfl, (Option.some.inj hb).symm⟩
  · next e =>
    exact .inr ⟨fun e2 => e e2.symm, hr, fun e2 => hn.apart nym rec hr (fun e3 => e e3.symm) (by rw [← e2]; exact hb)⟩

theorem pm_cases_none {P : Pool} {r : Req} {a b : Fv} (hn : PmNew P r a)
    (h : ∀ nym rec, (updateState P r).get? nym = some rec → rec.get? .alias ≠ some b) :
    b ≠ a ∧ ∀ nym rec, P.get? nym = some rec → rec.get? .alias ≠ some b := by
  have hba : b ≠ a := by
    intro e; subst e
    exact h r.dest (newRec P r) (by unfold updateState; rw [Dict.get?_set, if_pos rfl]) hn.alias
  refine ⟨hba, fun nym rec hr hb => ?_⟩
  by_cases e : nym = r.dest
  · subst e
    rw [hn.old rec hr] at hb
    exact hba (Option.some.inj hb).symm
  · exact h nym rec (by unfold updateState; rw [Dict.get?_set, if_neg (fun e2 => e e2.symm)]; exact hr) hb

/-- All addresses, of validators or not. -/
structure PmAll (P : Pool) (F : Rec → Option Fv × Option Fv) (reg : Dict Fv (Fv × Fv)) : Prop where
  known : ∀ nym rec a, P.get? nym = some rec → rec.get? .alias = some a → ∃ ha, reg.get? a = some ha ∧ F rec = pmHa ha
  only : ∀ a, (∀ nym rec, P.get? nym = some rec → rec.get? .alias ≠ some a) → reg.get? a = none

theorem PmAll.step {P : Pool} {F : Rec → Option Fv × Option Fv} {reg reg' : Dict Fv (Fv × Fv)} {r : Req} {a : Fv}
    (h : PmAll P F reg) (hn : PmNew P r a) (hother : ∀ b, b ≠ a → reg'.get? b = reg.get? b)
    (hat : ∃ ha, reg'.get? a = some ha ∧ F (newRec P r) = pmHa ha) : PmAll (updateState P r) F reg' := by
  refine ⟨fun nym rec b hr hb => ?_, fun b hb => ?_⟩
  · rcases pm_cases hn hr hb with ⟨_, e2, e3⟩ | ⟨_, h2, h3⟩
    · subst e2 e3; exact hat
    · rw [hother b h3]; exact h.known nym rec b h2 hb
  · obtain ⟨h1, h2⟩ := pm_cases_none hn hb
    rw [hother b h1]; exact h.only b h2

theorem pm_setHa {d : Dict Fv (Fv × Fv)} {a : Fv} {data : Rec} {ip port : Field} {n : Fv × Fv}
    (h : (data.get? ip, data.get? port) = pmHa n) : setHa d a (data.get? ip) (data.get? port) = d.set a n := by
  unfold pmHa at h
  injection h with h1 h2
  rw [h1, h2]; rfl

/-- What is gathered from the ledger. -/
structure PmParsed (P : Pool) (s : Parsed) : Prop where
  reg : PmAll P nodeAddr s.reg
  cli : PmAll P clientAddr s.cli
  keys : ∀ nym rec a, P.get? nym = some rec → rec.get? .alias = some a → s.keys.get? a = some nym
  active : ∀ nym rec a, P.get? nym = some rec → rec.get? .alias = some a → (a ∈ s.active ↔ validator ∈ pmSvc rec)
  actOnly : ∀ a, (∀ nym rec, P.get? nym = some rec → rec.get? .alias ≠ some a) → a ∉ s.active

theorem pm_setActive {active : List Fv} {a b : Fv} {o : Option (List Bytes)} (h : b ≠ a) :
    b ∈ setActive active a o ↔ b ∈ active := by
  unfold setActive
  cases o with
  | none => exact Iff.rfl
  | some l =>
    simp only
    split
    · simp [h]
    · simp [h]

theorem PmParsed.step {P : Pool} {s : Parsed} {r : Req} {a : Fv} (h : PmParsed P s) (hn : PmNew P r a) :
    ∃ s', parseOne s r = .ok s' ∧ PmParsed (updateState P r) s' := by
  unfold parseOne
  rw [pm_index hn.given]
  refine ⟨_, rfl, ?_, ?_, ?_, ?_, ?_⟩
  · rcases hn.ha with ⟨hno, rec, hr, h1, h2⟩ | ⟨hall, h1, h2⟩
    · simp only [hno .nodeIp (by simp [haFields]), setHa]
      refine h.reg.step hn (fun _ _ => rfl) ?_
      rw [h1]; exact h.reg.known r.dest rec a hr (hn.old rec hr)
    · obtain ⟨n, c, h3, h4⟩ := pm_full hall
      simp only
      rw [pm_setHa h3]
      refine h.reg.step hn (fun b hb => by rw [Dict.get?_set, if_neg (fun e => hb e.symm)]) ⟨n, ?_, h1.trans h3⟩
      rw [Dict.get?_set, if_pos rfl]
  · rcases hn.ha with ⟨hno, rec, hr, h1, h2⟩ | ⟨hall, h1, h2⟩
    · simp only [hno .clientIp (by simp [haFields]), setHa]
      refine h.cli.step hn (fun _ _ => rfl) ?_
      rw [h2]; exact h.cli.known r.dest rec a hr (hn.old rec hr)
    · obtain ⟨n, c, h3, h4⟩ := pm_full hall
      simp only
      rw [pm_setHa h4]
      refine h.cli.step hn (fun b hb => by rw [Dict.get?_set, if_neg (fun e => hb e.symm)]) ⟨c, ?_, h2.trans h4⟩
      rw [Dict.get?_set, if_pos rfl]
  · intro nym rec b hr hb
    simp only
    rcases pm_cases hn hr hb with ⟨e1, e2, e3⟩ | ⟨_, h2, h3⟩
    · subst e1 e2 e3; rw [Dict.get?_set, if_pos rfl]
    · rw [Dict.get?_set, if_neg (fun e => h3 e.symm)]; exact h.keys nym rec b h2 hb
  · intro nym rec b hr hb
    simp only
    rcases pm_cases hn hr hb with ⟨e1, e2, e3⟩ | ⟨_, h2, h3⟩
    · subst e1 e2 e3
      rw [pmSvc_new hn]
      cases hl : svcOf r.data with
      | none =>
        simp only [setActive, Option.none_or]
        cases hp : P.get? r.dest with
        | none =>
          simp only [Option.bind_none, Option.getD_none, List.not_mem_nil, iff_false]
          refine h.actOnly b fun nym rec hr => ?_
          by_cases e : nym = r.dest
          · subst e; rw [hp] at hr; cases hr
          · exact hn.apart nym rec hr e
        | some old => exact h.active r.dest old b hp (hn.old old hp)
      | some l =>
        simp only [setActive, Option.some_or, Option.getD_some]
        split
        · next hv => simp [hv]
        · next hv => simp [hv]
    · rw [pm_setActive h3]; exact h.active nym rec b h2 hb
  · intro b hb
    simp only
    obtain ⟨h1, h2⟩ := pm_cases_none hn hb
    rw [pm_setActive h1]; exact h.actOnly b h2

theorem pm_parse {env : Env} {l : List Req} (h : Accepted env l) :
    ∃ s, l.foldlM parseOne {} = .ok s ∧ PmParsed (applyAll [] l) s := by
  induction l using snoc_induction with
  | nil => exact ⟨_, rfl, ⟨⟨fun _ _ _ h => (by cases h), fun _ _ => rfl⟩, ⟨fun _ _ _ h => (by cases h), fun _ _ => rfl⟩,
      fun _ _ _ h => (by cases h), fun _ _ _ h => (by cases h), fun _ _ => (by simp)⟩⟩
  | snoc l r ih =>
    obtain ⟨s, hs, hp⟩ := ih (pm_accepted_prefix h)
    obtain ⟨a, hn⟩ := pm_new (pm_good (pm_accepted_prefix h)).unique (h l r [] rfl)
    obtain ⟨s', hs', hp'⟩ := hp.step hn
    rw [pm_applyAll_snoc, List.foldlM_append, hs]
    refine ⟨s', ?_, hp'⟩
    simp only [bind, Except.bind, List.foldlM_cons, List.foldlM_nil]
    rw [hs']; rfl

theorem pm_loadOrder {env : Env} {l : List Req} (h : Accepted env l) :
    ∃ c, loadOrder l = .ok c ∧ PmIds (applyAll [] l) c.1 ∧ ∀ nym, c.2.get? nym = ((applyAll [] l).get? nym).bind svcOf := by
  induction l using snoc_induction with
  | nil => exact ⟨_, rfl, ⟨rfl, fun _ => rfl⟩, fun _ => rfl⟩
  | snoc l r ih =>
    obtain ⟨c, hc, hi, hs⟩ := ih (pm_accepted_prefix h)
    obtain ⟨a, hn⟩ := pm_new (pm_good (pm_accepted_prefix h)).unique (h l r [] rfl)
    obtain ⟨ids, h1, h2, _⟩ := pmIds_step hi hn
    rw [pm_applyAll_snoc]
    unfold loadOrder at hc ⊢
    rw [List.foldlM_append, hc]
    have h3 : loadOne c r = .ok (ids, setServices c.2 r.dest (svcOf r.data)) := by
      unfold loadOne
      rw [pm_index hn.given]
      simp only [bind, Except.bind]
      rw [h1]; rfl
    refine ⟨(ids, setServices c.2 r.dest (svcOf r.data)), ?_, h2, fun nym => ?_⟩
    · simp only [bind, Except.bind, List.foldlM_cons, List.foldlM_nil]
      rw [h3]; rfl
    · unfold updateState
      rw [Dict.get?_set]
      by_cases e : r.dest = nym
      · subst e
        rw [if_pos rfl, Option.bind_some, hn.svc]
        simp only [setServices]
        cases svcOf r.data with
        | none => simp only [Option.none_or]; exact hs r.dest
        | some l => simp only [Dict.get?_set, if_true, Option.some_or]
      · rw [if_neg e, ← hs nym]
        simp only [setServices]
        cases svcOf r.data with
        | none => rfl
        | some l => simp only [Dict.get?_set, if_neg e]

/-- A start. -/
theorem pm_load {env : Env} {l : List Req} (h : Accepted env l) (me : Fv) (nk : Bytes → Prop) :
    ∃ m, load l = .ok m ∧ PmInv me nk (applyAll [] l) (fun _ => none) m := by
  obtain ⟨c, hc, hi, hs⟩ := pm_loadOrder h
  obtain ⟨s, hs2, hp⟩ := pm_parse h
  unfold load parse
  rw [hc]
  simp only [bind, Except.bind]
  rw [hs2]
  refine ⟨_, rfl, hi, fun nym => ⟨fun l0 hl => ?_, fun hl rec hr => ?_⟩, ⟨fun nym rec a hr ha => ?_, fun a ha => ?_⟩,
    ⟨fun nym rec a hr ha => ?_, fun a ha => ?_⟩, fun nym rec a _ hr ha hv _ => ?_⟩
  · simp only at hl
    rw [hs nym] at hl
    cases hp2 : (applyAll [] l).get? nym with
    | none => rw [hp2] at hl; cases hl
    | some rec =>
      rw [hp2, Option.bind_some] at hl
      exact ⟨rec, rfl, by unfold pmSvc; rw [hl]; rfl⟩
  · simp only at hl
    rw [hs nym, hr, Option.bind_some] at hl; exact hl
  · have hact := hp.active nym rec a hr ha
    obtain ⟨n, h1, h2⟩ := hp.reg.known nym rec a hr ha
    simp only
    unfold PmAt
    rw [Dict.get?_filter s.reg (fun a => decide (a ∈ s.active))]
    exact ⟨fun hv => ⟨n, by rw [if_pos (decide_eq_true (hact.2 hv))]; exact h1, .inl h2⟩,
      fun hv => by rw [if_neg (fun h3 => hv (hact.1 (of_decide_eq_true h3)))]⟩
  · simp only
    rw [Dict.get?_filter s.reg (fun a => decide (a ∈ s.active)), hp.reg.only a ha]
    split <;> rfl
  · have hact := hp.active nym rec a hr ha
    obtain ⟨n, h1, _⟩ := hp.reg.known nym rec a hr ha
    obtain ⟨c, h3, h4⟩ := hp.cli.known nym rec a hr ha
    have hh : s.reg.has a = true := (Dict.has_iff _ _).2 ⟨n, h1⟩
    simp only
    unfold PmAt
    rw [Dict.get?_filter s.cli (fun a => !(s.reg.has a && decide (a ∉ s.active)))]
    exact ⟨fun hv => ⟨c, by rw [hh, decide_eq_false (fun h5 => h5 (hact.2 hv))]; exact h3, .inl h4⟩,
      fun hv => by rw [hh, decide_eq_true (show ¬ a ∈ s.active from fun h5 => hv (hact.1 h5))]; rfl⟩
  · simp only
    rw [Dict.get?_filter s.cli (fun a => !(s.reg.has a && decide (a ∉ s.active))), hp.cli.only a ha]
    split <;> rfl
  · simp only
    rw [Dict.get?_filter s.keys (fun a => !(s.reg.has a && decide (a ∉ s.active))),
      decide_eq_false (fun h5 => h5 ((hp.active nym rec a hr ha).2 hv)), Bool.and_false]
    exact hp.keys nym rec a hr ha

theorem pm_present {P : Pool} {nym : Bytes} {rec : Rec} (h : P.get? nym = some rec) (rs : List Req) :
    ∃ rec', (applyAll P rs).get? nym = some rec' := by
  induction rs using snoc_induction with
  | nil => exact ⟨rec, h⟩
  | snoc l r ih =>
    rw [pm_applyAll_snoc]
    unfold updateState
    rw [Dict.get?_set]
    split
    · exact ⟨_, rfl⟩
    · exact ih

/-- Which nodes of a ledger did not change their keys. -/
def PmSameKey (ledger : List Req) (nym : Bytes) : Prop := ∀ r ∈ ledger, r.dest = nym → r.verkey = none

theorem pm_step {env : Env} {me : Fv} {L pre post : List Req} {r : Req} {alt : Bytes → Option Rec} {m : Mgr} {pool : Pool}
    (ha : Accepted env L) (hs : Stated L) (hL : L = pre ++ r :: post)
    (h : PmInv me (PmSameKey L) (applyAll [] pre) alt m) (hpool : PmPool (applyAll [] pre) alt pool) :
    ∃ m', onChange me pool m r = .ok m' ∧ PmInv me (PmSameKey L) (applyAll [] (pre ++ [r])) alt m' := by
  have hg : PmGood (applyAll [] pre) := pm_good (pm_accepted_prefix (k := r :: post) (by rw [← hL]; exact ha))
  rw [pm_applyAll_snoc]
  refine h.onChange hg.unique (ha pre r post hL) hpool
    (fun hk => hk r (by rw [hL]; simp) rfl) (fun rec l hr hl hv => ?_) (fun rec v => hg.lists r.dest rec v)
  refine hs pre r post rec l hL hr ?_ hv
  unfold svcOf at hl
  split at hl
  · next h2 => rw [h2]; injection hl with hl; rw [hl]
  · cases hl

theorem pm_batch {env : Env} {me : Fv} {L : List Req} {pool : Pool} (ha : Accepted env L) (hs : Stated L)
    (rs pre post : List Req) (m : Mgr) (hL : L = pre ++ (rs ++ post)) (hpool : pool = applyAll [] (pre ++ rs))
    (h : PmInv me (PmSameKey L) (applyAll [] pre) (fun nym => pool.get? nym) m) :
    ∃ m', rs.foldlM (onChange me pool) m = .ok m' ∧ PmInv me (PmSameKey L) pool (fun nym => pool.get? nym) m' := by
  induction rs generalizing pre m with
  | nil => exact ⟨m, rfl, by simp only [List.append_nil] at hpool; rw [← hpool] at h; exact h⟩
  | cons r rs ih =>
    have hg : PmGood pool := by
      rw [hpool]
      exact pm_good (pm_accepted_prefix (k := post) (by rw [List.append_assoc, ← hL]; exact ha))
    have hpp : PmPool (applyAll [] pre) (fun nym => pool.get? nym) pool := by
      intro nym rec hr
      obtain ⟨rec', h2⟩ := pm_present hr (r :: rs)
      rw [← pm_applyAll_append, ← hpool] at h2
      exact ⟨rec', h2, fun f hf => hg.unique.complete nym rec' h2 f (by simp [hf]), .inr h2⟩
    obtain ⟨m1, h1, hi1⟩ := pm_step ha hs (by rw [hL]; rfl) h hpp
    obtain ⟨m2, h2, hi2⟩ := ih (pre ++ [r]) m1 (by rw [hL]; simp) (by rw [hpool]; simp) hi1
    refine ⟨m2, ?_, hi2⟩
    rw [List.foldlM_cons, h1]
    exact h2

theorem PmReg.weaken {P : Pool} {alt : Bytes → Option Rec} {F : Rec → Option Fv × Option Fv} {reg : Dict Fv (Fv × Fv)}
    (h : PmReg P (fun _ => none) F reg) : PmReg P alt F reg := by
  refine ⟨fun nym rec a hr ha => ⟨fun hv => ?_, (h.known nym rec a hr ha).2⟩, h.only⟩
  obtain ⟨x, h1, h2⟩ := (h.known nym rec a hr ha).1 hv
  rcases h2 with h2 | ⟨_, h2, _⟩
  · exact ⟨x, h1, .inl h2⟩
  · cases h2

theorem PmReg.settle {P : Pool} {F : Rec → Option Fv × Option Fv} {reg : Dict Fv (Fv × Fv)}
    (h : PmReg P (fun nym => P.get? nym) F reg) : PmReg P (fun _ => none) F reg := by
  refine ⟨fun nym rec a hr ha => ⟨fun hv => ?_, (h.known nym rec a hr ha).2⟩, h.only⟩
  obtain ⟨x, h1, h2⟩ := (h.known nym rec a hr ha).1 hv
  rcases h2 with h2 | ⟨rec', h2, h3⟩
  · exact ⟨x, h1, .inl h2⟩
  · have h2 : P.get? nym = some rec' := h2
    rw [hr] at h2; cases h2
    exact ⟨x, h1, .inl h3⟩

theorem pm_run {env : Env} {me : Fv} {L : List Req} (ha : Accepted env L) (hs : Stated L) (evs : List PoolMgr.Ev) (s : Node)
    (hL : L = s.ledger ++ txnsOf evs) (hp : s.pool = applyAll [] s.ledger)
    (h : PmInv me (PmSameKey L) s.pool (fun _ => none) s.mgr) :
    ∃ s', PoolMgr.run me s evs = .ok s' ∧ s'.ledger = L ∧ s'.pool = applyAll [] L ∧
      PmInv me (PmSameKey L) s'.pool (fun _ => none) s'.mgr := by
  induction evs generalizing s with
  | nil =>
    have : L = s.ledger := by rw [hL]; simp [txnsOf]
    exact ⟨s, rfl, this.symm, by rw [hp, this], h⟩
  | cons e evs ih =>
    unfold PoolMgr.run
    rw [List.foldlM_cons]
    cases e with
    | batch rs =>
      have hL2 : L = s.ledger ++ (rs ++ txnsOf evs) := by rw [hL]; simp [txnsOf]
      have hpe : applyAll s.pool rs = applyAll [] (s.ledger ++ rs) := by rw [hp, pm_applyAll_append]
      obtain ⟨m', h1, h2⟩ := pm_batch (me := me) (pool := applyAll s.pool rs) ha hs rs s.ledger (txnsOf evs) s.mgr hL2 hpe
        (by rw [← hp]; exact ⟨h.ids, h.svc, h.reg.weaken, h.cli.weaken, h.key⟩)
      have h3 : PoolMgr.step me s (.batch rs) = .ok ⟨s.ledger ++ rs, applyAll s.pool rs, m'⟩ := by
        unfold PoolMgr.step
        simp only
        rw [h1]; rfl
      rw [h3]
      exact ih _ (by rw [hL2]; simp) hpe ⟨h2.ids, h2.svc, h2.reg.settle, h2.cli.settle, h2.key⟩
    | catchup r =>
      have hL2 : L = s.ledger ++ r :: txnsOf evs := by rw [hL]; simp [txnsOf]
      have hg : PmGood (applyAll [] s.ledger) :=
        pm_good (pm_accepted_prefix (k := r :: txnsOf evs) (by rw [← hL2]; exact ha))
      obtain ⟨m', h1, h2⟩ := pm_step (me := me) (pool := s.pool) ha hs hL2 (by rw [← hp]; exact h)
        (fun nym rec hr => ⟨rec, by rw [hp]; exact hr, fun f hf => hg.unique.complete nym rec hr f (by simp [hf]), .inl rfl⟩)
      have h3 : PoolMgr.step me s (.catchup r) = .ok ⟨s.ledger ++ [r], updateState s.pool r, m'⟩ := by
        unfold PoolMgr.step
        simp only
        rw [h1]; rfl
      have hpe : updateState s.pool r = applyAll [] (s.ledger ++ [r]) := by rw [pm_applyAll_snoc, hp]
      rw [h3]
      exact ih _ (by rw [hL2]; simp) hpe (by simp only; rw [hpe]; exact h2)
    | restart =>
      have hL2 : L = s.ledger ++ txnsOf evs := by rw [hL]; simp [txnsOf]
      obtain ⟨m', h1, h2⟩ := pm_load (pm_accepted_prefix (k := txnsOf evs) (by rw [← hL2]; exact ha)) me (PmSameKey L)
      have h3 : PoolMgr.step me s .restart = .ok ⟨s.ledger, s.pool, m'⟩ := by
        unfold PoolMgr.step
        simp only
        rw [h1]; rfl
      rw [h3]
      exact ih _ hL2 hp (by simp only; rw [hp]; exact h2)

theorem pm_inService {P : Pool} {nym : Bytes} {rec : Rec} (h : P.get? nym = some rec) :
    inService P nym = true ↔ validator ∈ pmSvc rec := by
  unfold inService pmSvc svcOf validator
  rw [h, Option.bind_some]
  split
  · next h2 => rw [h2]; simp
  · next h2 =>
    split
    · next l h3 => exact absurd h3 (h2 l)
    · simp

theorem pm_lists {P : Pool} {F : Rec → Option Fv × Option Fv} {reg : Dict Fv (Fv × Fv)}
    (h : PmReg P (fun _ => none) F reg) : Lists P F reg := by
  intro a ha
  constructor
  · intro hr
    by_cases hex : ∃ nym rec, P.get? nym = some rec ∧ rec.get? .alias = some a
    · obtain ⟨nym, rec, h1, h2⟩ := hex
      have hk := h.known nym rec a h1 h2
      by_cases hv : validator ∈ pmSvc rec
      · obtain ⟨x, h3, h4⟩ := hk.1 hv
        rw [hr] at h3; cases h3
        refine ⟨nym, rec, h1, h2, (pm_inService h1).2 hv, ?_⟩
        rcases h4 with h4 | ⟨_, h4, _⟩
        · exact h4
        · cases h4
      · rw [hk.2 hv] at hr; cases hr
    · rw [h.only a fun nym rec h1 h2 => hex ⟨nym, rec, h1, h2⟩] at hr; cases hr
  · rintro ⟨nym, rec, h1, h2, h3, h4⟩
    obtain ⟨x, h5, h6⟩ := (h.known nym rec a h1 h2).1 ((pm_inService h1).1 h3)
    rcases h6 with h6 | ⟨_, h6, _⟩
    · rw [h4] at h6
      unfold pmHa at h6
      injection h6 with e1 e2
      injection e1 with e1
      injection e2 with e2
      rw [h5, Prod.ext e1 e2]
    · cases h6

theorem pm_joinOrder (L : List Req) : (applyAll [] L).keys = joinOrder L ∧ (joinOrder L).Nodup := by
  induction L using snoc_induction with
  | nil => exact ⟨rfl, List.nodup_nil⟩
  | snoc l r ih =>
    have hj : joinOrder (l ++ [r]) = if r.dest ∈ joinOrder l then joinOrder l else joinOrder l ++ [r.dest] := by
      unfold joinOrder; rw [List.foldl_append]; rfl
    rw [pm_applyAll_snoc, hj]
    unfold updateState
    rw [pm_keys_set, ih.1]
    refine ⟨by by_cases h : r.dest ∈ joinOrder l <;> simp [h], ?_⟩
    split
    · exact ih.2
    · next h =>
      rw [List.nodup_append]
      exact ⟨ih.2, by simp, fun a ha b hb e => h (by rw [List.mem_singleton] at hb; rw [← hb, ← e]; exact ha)⟩

theorem pm_knows {me : Fv} {nk : Bytes → Prop} {L : List Req} {m : Mgr} (h : PmInv me nk (applyAll [] L) (fun _ => none) m) : Knows L (applyAll [] L) m := by
  obtain ⟨hk, hnd⟩ := pm_joinOrder L
  have hids : m.ids.map Prod.fst = joinOrder L := by rw [← hk]; exact h.ids.keys
  have hget : ∀ e ∈ m.ids, m.ids.get? e.1 = some e.2 := fun e he =>
    Dict.get?_of_mem (by unfold Dict.keys; rw [hids]; exact hnd) he
  refine ⟨?_, pm_lists h.reg, pm_lists h.cli, ?_⟩
  · rw [← hids, List.map_map]
    refine List.map_congr_left fun e he => ?_
    simp only [Function.comp]
    rw [← h.ids.names, hget e he]
  · unfold ranked
    rw [← hids, List.filter_map]
    congr 1
    refine List.filter_congr fun e he => ?_
    simp only [Function.comp]
    have h1 := h.ids.names e.1
    rw [hget e he] at h1
    cases hp : (applyAll [] L).get? e.1 with
    | none => rw [hp] at h1; cases h1
    | some rec =>
      rw [hp, Option.bind_some] at h1
      have h2 := h.reg.known e.1 rec e.2 hp h1.symm
      rw [Bool.eq_iff_iff, pm_inService hp, Dict.has_iff]
      constructor
      · rintro ⟨v, hv⟩
        refine Classical.byContradiction fun h3 => ?_
        rw [h2.2 h3] at hv; cases hv
      · intro h3
        obtain ⟨x, h4, _⟩ := h2.1 h3
        exact ⟨x, h4⟩

theorem pm_main (env : Env) (me : Fv) (evs : List PoolMgr.Ev) (ha : Accepted env (txnsOf evs)) (hs : Stated (txnsOf evs)) :
    ∃ s, PoolMgr.run me {} evs = .ok s ∧ s.ledger = txnsOf evs ∧ s.pool = applyAll [] (txnsOf evs) ∧
      PmInv me (PmSameKey (txnsOf evs)) s.pool (fun _ => none) s.mgr :=
  pm_run ha hs evs {} rfl rfl ⟨⟨rfl, fun _ => rfl⟩, fun _ => ⟨fun _ h => (by cases h), fun _ _ _ => (by rename_i h; cases h)⟩,
    ⟨fun _ _ _ h => (by cases h), fun _ _ => rfl⟩, ⟨fun _ _ _ h => (by cases h), fun _ _ => rfl⟩, fun _ _ _ _ h => (by cases h)⟩

/-- **C78**, the part that holds: after any batches, catch-ups and restarts, none of which
raises an exception, a node knows exactly the validators of the pool state. -/
theorem pool_known_partial (env : Env) (me : Fv) (evs : List PoolMgr.Ev) (ha : Accepted env (txnsOf evs))
    (hs : Stated (txnsOf evs)) :
    ∃ s, PoolMgr.run me {} evs = .ok s ∧ s.ledger = txnsOf evs ∧ s.pool = applyAll [] (txnsOf evs) ∧
      Knows s.ledger s.pool s.mgr := by
  obtain ⟨s, h1, h2, h3, h4⟩ := pm_main env me evs ha hs
  refine ⟨s, h1, h2, h3, ?_⟩
  rw [h3] at h4 ⊢
  rw [h2]
  exact pm_knows h4

/-- **C78**, the nodes agree: two nodes with the same pool ledger, one of which ordered it
in other batches, caught up with it, or was started again at other places, agree on the
order, names, addresses and ranks of all nodes. -/
theorem pool_agree_partial (env : Env) (me me' : Fv) (evs evs' : List PoolMgr.Ev) (he : txnsOf evs = txnsOf evs')
    (ha : Accepted env (txnsOf evs)) (hs : Stated (txnsOf evs)) :
    ∃ s s', PoolMgr.run me {} evs = .ok s ∧ PoolMgr.run me' {} evs' = .ok s' ∧ s.mgr.ids = s'.mgr.ids ∧
      (∀ name, s.mgr.reg.get? name = s'.mgr.reg.get? name) ∧ (∀ name, s.mgr.cli.get? name = s'.mgr.cli.get? name) ∧
      ranked s.mgr = ranked s'.mgr := by
  obtain ⟨s, h1, h2, h3, h4⟩ := pool_known_partial env me evs ha hs
  obtain ⟨s', h1', h2', h3', h4'⟩ := pool_known_partial env me' evs' (he ▸ ha) (he ▸ hs)
  have hp : s.pool = s'.pool := by rw [h3, h3', he]
  have hl : s.ledger = s'.ledger := by rw [h2, h2', he]
  have agree : ∀ {F : Rec → Option Fv × Option Fv} {x y : Dict Fv (Fv × Fv)}, Lists s.pool F x → Lists s.pool F y →
      ∀ name, x.get? name = y.get? name := by
    intro F x y hx hy name
    refine Option.ext fun ha => ?_
    rw [hx name ha, hy name ha]
  have hids : s.mgr.ids = s'.mgr.ids := by
    have : s.mgr.ids.map (fun e => (e.1, some e.2)) = s'.mgr.ids.map (fun e => (e.1, some e.2)) := by
      rw [h4.names, hl, hp, h4'.names]
    refine (List.map_inj_right fun a b hab => ?_).1 this
    injection hab with e1 e2
    injection e2 with e2
    exact Prod.ext e1 e2
  have hreg := agree h4.nodes (by rw [hp]; exact h4'.nodes)
  refine ⟨s, s', h1, h1', hids, hreg, agree h4.clients (by rw [hp]; exact h4'.clients), ?_⟩
  unfold ranked
  rw [hids]
  refine List.filter_congr fun e _ => ?_
  unfold Dict.has
  rw [hreg]

/-- **C78**, the keys, the part that holds: the key kept for a validator none of whose
transactions changes the key is its nym. -/
theorem pool_key_partial (env : Env) (me : Fv) (evs : List PoolMgr.Ev) (ha : Accepted env (txnsOf evs))
    (hs : Stated (txnsOf evs)) (nym : Bytes) (hk : ∀ r ∈ txnsOf evs, r.dest = nym → r.verkey = none) :
    ∃ s, PoolMgr.run me {} evs = .ok s ∧ ∀ rec name, s.pool.get? nym = some rec → rec.get? .alias = some name →
      inService s.pool nym = true → name ≠ me → s.mgr.keys.get? name = some nym := by
  obtain ⟨s, h1, _, _, h4⟩ := pm_main env me evs ha hs
  exact ⟨s, h1, fun rec name hr hn hv hm => h4.key nym rec name hk hr hn ((pm_inService hr).1 hv) hm⟩

/-- A checker of `Accepted`. -/
def acceptedB (env : Env) : Pool → List Req → Bool
  | _, [] => true
  | p, r :: rs => (check env p r = none) && acceptedB env (updateState p r) rs

theorem acceptedB_sound {env : Env} {l : List Req} (h : acceptedB env [] l = true) : Accepted env l := by
  have gen : ∀ l p, acceptedB env p l = true → ∀ pre r post, l = pre ++ r :: post → check env (applyAll p pre) r = none := by
    intro l
    induction l with
    | nil => intro p _ pre r post e; cases pre <;> cases e
    | cons x l ih =>
      intro p h pre r post e
      unfold acceptedB at h
      rw [Bool.and_eq_true] at h
      cases pre with
      | nil => cases e; exact of_decide_eq_true h.1
      | cons y pre =>
        injection e with e1 e2
        subst e1
        exact ih _ h.2 pre r post e2
  exact fun pre r post e => gen l [] h pre r post e

/-- A checker of `Stated`. -/
def statedB : Pool → List Req → Bool
  | _, [] => true
  | p, r :: rs => (match p.get? r.dest, svcOf r.data with
      | some rec, some l => !l.contains (ascii "VALIDATOR") || rec.has .services || r.data.has .nodeIp
      | _, _ => true) && statedB (updateState p r) rs

theorem statedB_sound {l : List Req} (h : statedB [] l = true) : Stated l := by
  have gen : ∀ l p, statedB p l = true → ∀ pre r post rec k, l = pre ++ r :: post →
      (applyAll p pre).get? r.dest = some rec → r.data.get? .services = some (.list k) → ascii "VALIDATOR" ∈ k →
      (∃ v, rec.get? .services = some v) ∨ ∃ v, r.data.get? .nodeIp = some v := by
    intro l
    induction l with
    | nil => intro p _ pre r post rec k e; cases pre <;> cases e
    | cons x l ih =>
      intro p h pre r post rec k e h1 h2 h3
      unfold statedB at h
      rw [Bool.and_eq_true] at h
      cases pre with
      | nil =>
        cases e
        have h4 := h.1
        have hp : p.get? x.dest = some rec := h1
        have hs : svcOf x.data = some k := by unfold svcOf; rw [h2]
        rw [hp, hs] at h4
        simp only [Bool.or_eq_true] at h4
        rcases h4 with (h4 | h4) | h4
        · rw [Bool.not_eq_true', ← Bool.not_eq_true, List.contains_iff_mem] at h4; exact absurd h3 h4
        · exact .inl ((Dict.has_iff _ _).1 h4)
        · exact .inr ((Dict.has_iff _ _).1 h4)
      | cons y pre =>
        injection e with e1 e2
        subst e1
        exact ih _ h.2 pre r post rec k e2 h1 h2 h3
  exact fun pre r post rec k e => gen l [] h pre r post rec k e

/-- The data of a node with a service. -/
def pmJoin (i : UInt8) : Req := ⟨[i], [10 + i], none, ntData i ++ [(.services, .list [validator])], true⟩
/-- A change of the services. -/
def pmServe (i : UInt8) (l : List Bytes) : Req := ⟨[i], [10 + i], none, [(.alias, .str [i]), (.services, .list l)], true⟩
/-- A change of the addresses. -/
def pmMove (i j : UInt8) : Req := ⟨[i], [10 + i], none, (ntData j).dropLast ++ [(.alias, .str [i])], true⟩
/-- A change of the key. -/
def pmRotate (i : UInt8) (key : Bytes) : Req := ⟨[i], [10 + i], some key, [(.alias, .str [i])], true⟩

/-- Three nodes join; the second leaves, moves, returns and moves again in one batch; the
third leaves; a fourth joins by catch-up, and the node starts again twice. -/
def pmHistory : List PoolMgr.Ev :=
  [.batch [pmJoin 1, pmJoin 2, pmJoin 3], .restart,
   .batch [pmServe 2 [], pmMove 2 22, pmServe 2 [validator], pmMove 2 32], .batch [pmServe 3 []], .catchup (pmJoin 4), .restart]

example : ∃ s, PoolMgr.run (.str [1]) {} pmHistory = .ok s ∧ s.ledger = txnsOf pmHistory ∧
    s.pool = applyAll [] (txnsOf pmHistory) ∧ Knows s.ledger s.pool s.mgr :=
  pool_known_partial ntEnv _ _ (acceptedB_sound (by decide +kernel)) (statedB_sound (by decide +kernel))
example : ((PoolMgr.run (.str [1]) {} pmHistory).toOption.map fun s => (s.mgr.ids.keys, s.mgr.reg.keys,
    s.mgr.reg.get? (.str [2]), (ranked s.mgr).map (·.1))) =
    some ([[11], [12], [13], [14]], [.str [1], .str [2], .str [4]], some (.str [10, 0, 0, 32], .int 9701),
      [[11], [12], [14]]) := by decide +kernel
example : ∃ s s', PoolMgr.run (.str [1]) {} pmHistory = .ok s ∧
    PoolMgr.run (.str [2]) {} (.restart :: (txnsOf pmHistory).map .catchup) = .ok s' ∧ s.mgr.ids = s'.mgr.ids ∧
    (∀ name, s.mgr.reg.get? name = s'.mgr.reg.get? name) ∧ (∀ name, s.mgr.cli.get? name = s'.mgr.cli.get? name) ∧
    ranked s.mgr = ranked s'.mgr :=
  pool_agree_partial ntEnv _ _ _ _ rfl (acceptedB_sound (by decide +kernel)) (statedB_sound (by decide +kernel))
example : ∃ s, PoolMgr.run (.str [1]) {} pmHistory = .ok s ∧ ∀ rec name, s.pool.get? [12] = some rec →
    rec.get? .alias = some name → inService s.pool [12] = true → name ≠ .str [1] → s.mgr.keys.get? name = some [12] :=
  pool_key_partial ntEnv _ _ (acceptedB_sound (by decide +kernel)) (statedB_sound (by decide +kernel)) _
    (by decide +kernel)
example : ((PoolMgr.run (.str [1]) {} pmHistory).toOption.map fun s => (inService s.pool [12], s.mgr.keys.get? (.str [2]))) =
    some (true, some [12]) := by decide +kernel

/-- A node that joins without a word on its services. -/
def pmQuiet (i : UInt8) : Req := ⟨[i], [10 + i], none, ntData i, true⟩

/-- **C78**, negation for services: a node joins with no services stated and becomes a
validator later. The nodes that did not start again in between take it over, the others
raise an exception when they execute that batch. -/
theorem promoted_after_restart : ∃ (rs : List Req) (r : Req), Accepted ntEnv (rs ++ [r]) ∧
    ((PoolMgr.run (.str [1]) {} [.batch rs, .batch [r]]).toOption.map fun s => s.mgr.reg.get? (.str [2])) =
      some (some (.str [10, 0, 0, 2], .int 9701)) ∧
    PoolMgr.run (.str [1]) {} [.batch rs, .restart, .batch [r]] = .error .keyError := by
  refine ⟨[pmJoin 1, pmQuiet 2], pmServe 2 [validator], acceptedB_sound (by decide +kernel), by decide +kernel,
    by decide +kernel⟩

/-- **C78**, negation for keys: the key of a validator that was changed is the new one until
the node that keeps it starts again, and then is the first one. -/
theorem key_lost_on_restart : ∃ (rs : List Req), Accepted ntEnv rs ∧ Stated rs ∧
    ((PoolMgr.run (.str [1]) {} [.batch rs]).toOption.map fun s => s.mgr.keys.get? (.str [2])) = some (some [99]) ∧
    ((PoolMgr.run (.str [1]) {} [.batch rs, .restart]).toOption.map fun s => s.mgr.keys.get? (.str [2])) =
      some (some [12]) :=
  ⟨[pmJoin 1, pmJoin 2, pmRotate 2 [99]], acceptedB_sound (by decide +kernel), statedB_sound (by decide +kernel),
    by decide +kernel, by decide +kernel⟩

/-- **C78**, negation for keys without restarts: a validator that changed its key, leaves and
returns is given its first key. -/
theorem key_lost_on_return : ∃ (rs : List Req), Accepted ntEnv rs ∧ Stated rs ∧ (∃ r ∈ rs, r.verkey = some [99]) ∧
    ((PoolMgr.run (.str [1]) {} [.batch rs]).toOption.map fun s => s.mgr.keys.get? (.str [2])) = some (some [12]) :=
  ⟨[pmJoin 1, pmJoin 2, pmRotate 2 [99], pmServe 2 [], pmServe 2 [validator]], acceptedB_sound (by decide +kernel),
    statedB_sound (by decide +kernel), ⟨pmRotate 2 [99], by decide +kernel, rfl⟩, by decide +kernel⟩

end Verif.Props
