import Verif.Spec.Propagator
import Verif.Proofs.Count
/-! Invariants of the tracked requests. -/
namespace Verif.Propagator

/-- What the log must say when `a` is done. -/
def Good (pre : List Act) : Act → Prop
  | .forwarded k _ => ∃ l, life k pre = some l ∧ ∀ m, Act.forwarded k m ∉ l
  | .cleaned k => ∃ l, life k pre = some l ∧ Act.executed k ∈ l ∧
      ∀ a n b, l = a ++ Act.forwarded k n :: b → n ≤ (b.filter (isFree k)).length
  | _ => True

def LogGood (log : List Act) : Prop := ∀ pre a post, log = pre ++ a :: post → Good pre a

theorem logGood_snoc {log : List Act} {a : Act} (h : LogGood log) (ha : Good log a) :
    LogGood (log ++ [a]) := by
  intro pre x post e
  cases hp : post.reverse with
  | nil =>
    have : post = [] := by simpa using hp
    subst this
    have := List.append_inj' e (by simp)
    obtain ⟨e1, e2⟩ := this
    simp only [List.cons.injEq, and_true] at e2
    subst e1; subst e2; exact ha
  | cons y ys =>
    have : post = ys.reverse ++ [y] := by
      have := congrArg List.reverse hp; simpa using this
    subst this
    have e' : log ++ [a] = (pre ++ x :: ys.reverse) ++ [y] := by rw [e]; simp
    obtain ⟨e1, -⟩ := List.append_inj' e' (by simp)
    exact h pre x _ e1

theorem life_snoc (k : Key) (log : List Act) (a : Act) :
    life k (log ++ [a]) = match a with
      | .added j => if j = k then some [] else (life k log).map (· ++ [a])
      | .cleaned j => if j = k then none else (life k log).map (· ++ [a])
      | .dropped j => if j = k then none else (life k log).map (· ++ [a])
      | a => (life k log).map (· ++ [a]) := by
  simp only [life, List.foldl_append, List.foldl_cons, List.foldl_nil]
  cases a <;> rfl

structure Rec (k : Key) (st : ReqState) (l : List Act) : Prop where
  ex : st.executed = true → Act.executed k ∈ l
  fw : st.forwarded = false → ∀ m, Act.forwarded k m ∉ l
  cnt : ∀ a n b, l = a ++ Act.forwarded k n :: b →
    st.forwardedTo = (n : Int) - (b.filter (isFree k)).length

/-- The record of `k` agrees with the log. -/
def Match (k : Key) : Option ReqState → Option (List Act) → Prop
  | none, none => True
  | some st, some l => Rec k st l
  | _, _ => False

structure Inv (s : State) : Prop where
  recs : ∀ k, Match k (s.requests.get? k) (life k s.log)
  good : LogGood s.log

theorem Inv.init : Inv {} := by
  refine ⟨fun k => by simp [Match, life], ?_⟩
  intro pre a post e
  simp at e

/-- A record changed without touching what the log speaks about. -/
theorem Inv.update {s : State} (h : Inv s) (k : Key) (f : ReqState → ReqState)
    (hf : ∀ st, (f st).executed = st.executed ∧ (f st).forwarded = st.forwarded ∧
      (f st).forwardedTo = st.forwardedTo) : Inv (s.update k f) := by
  unfold State.update
  split
  · exact h
  · next st hst =>
    refine ⟨fun j => ?_, h.good⟩
    have hj := h.recs j
    simp only [Dict.get?_set]
    split
    · next e =>
      subst e
      rw [hst] at hj
      cases hl : life k s.log with
      | none => rw [hl] at hj; exact hj.elim
      | some l =>
        rw [hl] at hj
        obtain ⟨h1, h2, h3⟩ := hf st
        exact ⟨fun e => hj.ex (h1 ▸ e), fun e => hj.fw (h2 ▸ e), fun a n b e => h3 ▸ hj.cnt a n b e⟩
    · exact hj

theorem rec_other {k : Key} {st : ReqState} {l : List Act} {x : Act} (h : Rec k st l)
    (h2 : ∀ n, x ≠ Act.forwarded k n) (h3 : isFree k x = false) : Rec k st (l ++ [x]) := by
  refine ⟨fun e => List.mem_append_left _ (h.ex e), fun e m hm => ?_, fun a n b e => ?_⟩
  · rcases List.mem_append.1 hm with hm | hm
    · exact h.fw e m hm
    · simp at hm; exact h2 m hm.symm
  · cases hb : b.reverse with
    | nil =>
      have : b = [] := by simpa using hb
      subst this
      obtain ⟨-, e2⟩ := List.append_inj' e (by simp)
      simp at e2
      exact absurd e2 (h2 n)
    | cons y ys =>
      have : b = ys.reverse ++ [y] := by
        have := congrArg List.reverse hb; simpa using this
      subst this
      have e' : l ++ [x] = (a ++ Act.forwarded k n :: ys.reverse) ++ [y] := by rw [e]; simp
      obtain ⟨e1, e2⟩ := List.append_inj' e' (by simp)
      simp only [List.cons.injEq, and_true] at e2
      subst e2
      rw [h.cnt a n _ e1]
      simp [h3]

theorem Match.map {k : Key} {o : Option ReqState} {p : Option (List Act)} {x : Act} (h : Match k o p)
    (h2 : ∀ n, x ≠ Act.forwarded k n) (h3 : isFree k x = false) : Match k o (p.map (· ++ [x])) := by
  cases o <;> cases p <;> simp only [Match, Option.map] at h ⊢
  exact rec_other h h2 h3

theorem Inv.add {s : State} (h : Inv s) (cfg : Cfg) (r : Req) : Inv (s.add cfg r) := by
  unfold State.add
  split
  · exact h
  · next hn =>
    have hn : s.requests.get? (cfg.digest r) = none := by
      simpa [Dict.has] using hn
    refine ⟨fun j => ?_, logGood_snoc h.good trivial⟩
    simp only [Dict.get?_set, life_snoc]
    split
    · exact ⟨by simp, by simp, fun a n b e => by simp at e⟩
    · next e => exact (h.recs j).map (by simp) rfl

theorem Inv.forward {s : State} (h : Inv s) (cfg : Cfg) (r : Req) (st : ReqState)
    (hst : s.requests.get? (cfg.digest r) = some st) (hf : st.forwarded = false) :
    Inv (s.forward cfg r) := by
  unfold State.forward State.update
  simp only [hst]
  have hk := h.recs (cfg.digest r)
  rw [hst] at hk
  cases hl : life (cfg.digest r) s.log with
  | none => rw [hl] at hk; exact hk.elim
  | some l =>
    rw [hl] at hk
    refine ⟨fun j => ?_, logGood_snoc h.good ⟨l, hl, hk.fw hf⟩⟩
    simp only [Dict.get?_set, life_snoc]
    split
    · next e =>
      subst e
      rw [hl]
      refine ⟨fun e => List.mem_append_left _ (hk.ex e), by simp, fun a n b e => ?_⟩
      cases hb : b.reverse with
      | nil =>
        have : b = [] := by simpa using hb
        subst this
        obtain ⟨-, e2⟩ := List.append_inj' e (by simp)
        simp at e2
        simp [e2]
      | cons y ys =>
        have : b = ys.reverse ++ [y] := by
          have := congrArg List.reverse hb; simpa using this
        subst this
        have e' : l ++ [Act.forwarded (cfg.digest r) s.numReplicas] =
          (a ++ Act.forwarded (cfg.digest r) n :: ys.reverse) ++ [y] := by
          have e : l ++ [Act.forwarded (cfg.digest r) s.numReplicas] = _ := e
          rw [e]; simp
        obtain ⟨e1, e2⟩ := List.append_inj' e' (by simp)
        exact absurd (by rw [e1]; simp) (hk.fw hf n)
    · next e =>
      refine (h.recs j).map ?_ rfl
      intro n e2
      simp only [Act.forwarded.injEq] at e2
      exact e e2.1

theorem Inv.clean {s : State} (h : Inv s) (k : Key) : Inv (s.clean k) := by
  unfold State.clean
  split
  · exact h
  · next st hst =>
    split
    · next hc =>
      have hk := h.recs k
      rw [hst] at hk
      cases hl : life k s.log with
      | none => rw [hl] at hk; exact hk.elim
      | some l =>
        rw [hl] at hk
        refine ⟨fun j => ?_, logGood_snoc h.good ⟨l, hl, hk.ex hc.1, fun a n b e => ?_⟩⟩
        · simp only [Dict.get?_erase, life_snoc]
          split
          · trivial
          · exact (h.recs j).map (by simp) rfl
        · have := hk.cnt a n b e
          omega
    · exact h

theorem Inv.forceFree {s : State} (h : Inv s) (k : Key) : Inv (s.forceFree k) := by
  unfold State.forceFree
  split
  · refine ⟨fun j => ?_, logGood_snoc h.good trivial⟩
    simp only [Dict.get?_erase, life_snoc]
    split
    · trivial
    · exact (h.recs j).map (by simp) rfl
  · exact h

theorem Inv.markExecuted {s : State} (h : Inv s) (k : Key) : Inv (s.markExecuted k) := by
  unfold State.markExecuted
  split
  · next hh =>
    apply Inv.clean
    cases hst : s.requests.get? k with
    | none => simp [Dict.has, hst] at hh
    | some st =>
      unfold State.update
      simp only [hst]
      refine ⟨fun j => ?_, logGood_snoc h.good trivial⟩
      simp only [Dict.get?_set, life_snoc]
      have hj := (h.recs j).map (x := Act.executed k) (by simp) rfl
      split
      · next e =>
        subst e
        rw [hst] at hj
        cases hl : life k s.log with
        | none => rw [hl] at hj; exact hj.elim
        | some l =>
          rw [hl] at hj
          exact ⟨by simp, hj.fw, hj.cnt⟩
      · exact hj
  · exact h

theorem Inv.free {s : State} (h : Inv s) (i : Inst) (k : Key) : Inv (s.free i k) := by
  unfold State.free
  split
  · next hh =>
    apply Inv.clean
    cases hst : s.requests.get? k with
    | none => simp [Dict.has, hst] at hh
    | some st =>
      unfold State.update
      simp only [hst]
      refine ⟨fun j => ?_, logGood_snoc h.good trivial⟩
      simp only [Dict.get?_set, life_snoc]
      split
      · next e =>
        subst e
        have hj := h.recs k
        rw [hst] at hj
        cases hl : life k s.log with
        | none => rw [hl] at hj; exact hj.elim
        | some l =>
          rw [hl] at hj
          refine ⟨fun e => List.mem_append_left _ (hj.ex e), fun e m hm => ?_, fun a n b e => ?_⟩
          · rcases List.mem_append.1 hm with hm | hm
            · exact hj.fw e m hm
            · simp at hm
          · cases hb : b.reverse with
            | nil =>
              have : b = [] := by simpa using hb
              subst this
              obtain ⟨-, e2⟩ := List.append_inj' e (by simp)
              simp at e2
            | cons y ys =>
              have : b = ys.reverse ++ [y] := by
                have := congrArg List.reverse hb; simpa using this
              subst this
              have e' : l ++ [Act.freed i k] = (a ++ Act.forwarded k n :: ys.reverse) ++ [y] := by
                have e : l ++ [Act.freed i k] = _ := e
                rw [e]; simp
              obtain ⟨e1, e2⟩ := List.append_inj' e' (by simp)
              simp only [List.cons.injEq, and_true] at e2
              subst e2
              have := hj.cnt a n _ e1
              simp [List.filter_append, isFree, this]
              omega
      · next e =>
        refine (h.recs j).map (by simp) ?_
        simp [isFree, e]
  · exact h

theorem Inv.of_eq {s t : State} (h : Inv s) (h1 : t.requests = s.requests) (h2 : t.log = s.log) : Inv t :=
  ⟨fun k => by rw [h1, h2]; exact h.recs k, by rw [h2]; exact h.good⟩

theorem Inv.addPropagate {s : State} (h : Inv s) (cfg : Cfg) (r : Req) (f : Sender) :
    Inv (s.addPropagate cfg r f) := (h.add cfg r).update _ _ (by simp)

theorem Inv.propagate {s : State} (h : Inv s) (cfg : Cfg) (r : Req) : Inv (s.propagate cfg r) := by
  unfold State.propagate
  split
  · exact h
  · exact (h.addPropagate cfg r _).of_eq rfl rfl

theorem canForward_some {cfg : Cfg} {s : State} {r fin : Req} (h : s.canForward cfg r = some fin) :
    ∃ st, s.requests.get? (cfg.digest r) = some st ∧ st.forwarded = false ∧
      reqWithQuorum cfg cfg.quorums.propagate st.propagates [] = some fin := by
  unfold State.canForward at h
  split at h
  · exact absurd h (by simp)
  · next st hst =>
    refine ⟨st, hst, ?_⟩
    split at h
    · exact absurd h (by simp)
    · next hf =>
      split at h
      · exact absurd h (by simp)
      · exact ⟨by simpa using hf, h⟩

theorem get?_setFinalised {cfg : Cfg} {s : State} {fin : Req} {k : Key} {st : ReqState}
    (h : s.requests.get? k = some st) :
    ∃ st', (s.setFinalised cfg fin).requests.get? k = some st' ∧ st'.forwarded = st.forwarded ∧
      st'.propagates = st.propagates := by
  unfold State.setFinalised State.update
  split
  · exact ⟨st, h, rfl, rfl⟩
  · next st2 h2 =>
    simp only [Dict.get?_set]
    split
    · next e =>
      subst e
      rw [h2] at h
      cases h
      exact ⟨_, rfl, rfl, rfl⟩
    · exact ⟨st, h, rfl, rfl⟩

theorem Inv.tryForwarding {s : State} (h : Inv s) (cfg : Cfg) (r : Req) : Inv (s.tryForwarding cfg r) := by
  unfold State.tryForwarding
  split
  · exact h
  · next fin hc =>
    obtain ⟨st, h1, h2, -⟩ := canForward_some hc
    obtain ⟨st', h3, h4, -⟩ := get?_setFinalised (cfg := cfg) (fin := fin) h1
    have hi : Inv (s.setFinalised cfg fin) := by
      unfold State.setFinalised
      exact h.update _ _ (by simp)
    exact hi.forward cfg r st' h3 (h4.trans h2)

theorem startProcessing_eq {cfg : Cfg} {s t : State} {r : Req} (h : s.startProcessing cfg r = some t) :
    t.requests = s.requests ∧ t.log = s.log ∧ t.known = s.known := by
  unfold State.startProcessing at h
  split at h
  · cases h; exact ⟨rfl, rfl, rfl⟩
  · simp only at h
    split at h
    · cases h; exact ⟨rfl, rfl, rfl⟩
    · exact absurd h (by simp)

theorem Inv.processPropagate {s : State} (h : Inv s) (cfg : Cfg) (r : Req) (f : Sender) :
    Inv (s.processPropagate cfg r f) := by
  unfold State.processPropagate
  split
  · exact h
  · split
    · exact h
    · next t ht =>
      obtain ⟨h1, h2, -⟩ := startProcessing_eq ht
      exact (((h.of_eq h1 h2).addPropagate cfg r f).propagate cfg r).tryForwarding cfg r

theorem Inv.step {s : State} (h : Inv s) (cfg : Cfg) (e : Event) : Inv (s.step cfg e) := by
  cases e with
  | client r =>
    simp only [State.step, State.client]
    split
    · exact h
    · split
      · exact h
      · split
        · exact h
        · next t ht =>
          obtain ⟨h1, h2, -⟩ := startProcessing_eq ht
          exact (((h.of_eq h1 h2).add cfg r).propagate cfg r).tryForwarding cfg r
  | propagate r f =>
    simp only [State.step, State.onPropagate]
    split
    · exact h
    · exact h.processPropagate cfg r f
  | reply r f => exact h.processPropagate cfg r f
  | proposed k =>
    simp only [State.step, State.onProposed]
    split
    · exact h
    · refine ⟨fun j => ?_, logGood_snoc h.good trivial⟩
      simp only [life_snoc]
      exact (h.recs j).map (by simp) rfl
  | executed k p =>
    simp only [State.step, State.execute]
    apply Inv.markExecuted
    cases p <;> exact h.of_eq rfl rfl
  | ordered k => exact h.update _ _ (by simp)
  | released i k =>
    simp only [State.step]
    exact (Inv.update h _ _ (by simp) : Inv (s.orderedBy k)).free i k
  | caughtUp k p =>
    simp only [State.step, State.caughtUp]
    have h : Inv { s with known := p :: s.known } := h.of_eq rfl rfl
    split
    · exact h
    · next st hst =>
      have h2 : Inv (if st.forwarded = true ∧ ¬st.executed = true then
          ((((({ s with known := p :: s.known } : State).markExecuted k).orderedBy k).free 0 k).done k)
          else { s with known := p :: s.known }) := by
        split
        · have h3 := h.markExecuted k
          have h4 : Inv ((({ s with known := p :: s.known } : State).markExecuted k).orderedBy k) :=
            h3.update _ _ (by simp)
          exact (h4.free 0 k).of_eq rfl rfl
        · exact h
      split
      · exact (h2.forceFree k).of_eq rfl rfl
      · exact h2
  | outdated k => exact (h.forceFree k).of_eq rfl rfl
  | replicas n => exact h.of_eq rfl rfl

theorem inv_run (cfg : Cfg) (evs : List Event) : Inv (run cfg evs) := by
  have : ∀ (evs : List Event) (s : State), Inv s → Inv (evs.foldl (State.step cfg) s) := by
    intro evs
    induction evs with
    | nil => intro s h; exact h
    | cons e evs ih => intro s h; exact ih _ (h.step cfg e)
  exact this evs {} Inv.init


/-! ## Who vouches for a request -/

structure VRec (cfg : Cfg) (evs : List Event) (k : Key) (st : ReqState) : Prop where
  nodup : (Dict.keys st.propagates).Nodup
  votes : ∀ v r, (v, r) ∈ st.propagates → cfg.digest r = k ∧
    (SentBy cfg evs r v ∨ (v = .str cfg.name ∧ Came cfg evs r))
  req : cfg.digest st.request = k ∧ Came cfg evs st.request
  fin : ∀ r, st.finalised = some r → cfg.digest r = k ∧ Came cfg evs r ∧ Quorate cfg evs k
  fwd : st.forwarded = true → st.finalised.isSome = true

/-- What is logged about a request is backed by what was received. -/
def Backed (cfg : Cfg) (evs : List Event) : Act → Prop
  | .forwarded k _ => Quorate cfg evs k
  | .applied k r => cfg.digest r = k ∧ Came cfg evs r
  | _ => True

structure VInv (cfg : Cfg) (evs : List Event) (s : State) : Prop where
  recs : ∀ k st, s.requests.get? k = some st → VRec cfg evs k st
  log : ∀ a ∈ s.log, Backed cfg evs a

theorem SentBy.mono {cfg : Cfg} {evs evs' : List Event} {r : Req} {v : Sender} (h : SentBy cfg evs r v)
    (hs : ∀ e ∈ evs, e ∈ evs') : SentBy cfg evs' r v :=
  h.imp (fun h => ⟨hs _ h.1, h.2⟩) (hs _)

theorem Came.mono {cfg : Cfg} {evs evs' : List Event} {r : Req} (h : Came cfg evs r)
    (hs : ∀ e ∈ evs, e ∈ evs') : Came cfg evs' r :=
  h.imp (fun h => ⟨hs _ h.1, h.2⟩) (fun ⟨w, h⟩ => ⟨w, h.mono hs⟩)

theorem SentBy.came {cfg : Cfg} {evs : List Event} {r : Req} {v : Sender} (h : SentBy cfg evs r v) :
    Came cfg evs r := .inr ⟨v, h⟩

theorem Vouched.mono {cfg : Cfg} {evs evs' : List Event} {k : Key} {v : Sender} (h : Vouched cfg evs k v)
    (hs : ∀ e ∈ evs, e ∈ evs') : Vouched cfg evs' k v := by
  obtain ⟨r, h1, h2⟩ := h
  exact ⟨r, h1, h2.imp (·.mono hs) (fun h => ⟨h.1, h.2.mono hs⟩)⟩

theorem Quorate.mono {cfg : Cfg} {evs evs' : List Event} {k : Key} (h : Quorate cfg evs k)
    (hs : ∀ e ∈ evs, e ∈ evs') : Quorate cfg evs' k := by
  obtain ⟨vs, h1, h2, h3⟩ := h
  exact ⟨vs, h1, h2, fun v hv => (h3 v hv).mono hs⟩

theorem VRec.mono {cfg : Cfg} {evs evs' : List Event} {k : Key} {st : ReqState} (h : VRec cfg evs k st)
    (hs : ∀ e ∈ evs, e ∈ evs') : VRec cfg evs' k st := by
  refine ⟨h.nodup, fun v r hv => ?_, ⟨h.req.1, h.req.2.mono hs⟩, fun r hr => ?_, h.fwd⟩
  · obtain ⟨h1, h2⟩ := h.votes v r hv
    exact ⟨h1, h2.imp (·.mono hs) (fun h => ⟨h.1, h.2.mono hs⟩)⟩
  · obtain ⟨h1, h2, h3⟩ := h.fin r hr
    exact ⟨h1, h2.mono hs, h3.mono hs⟩

theorem Backed.mono {cfg : Cfg} {evs evs' : List Event} {a : Act} (h : Backed cfg evs a)
    (hs : ∀ e ∈ evs, e ∈ evs') : Backed cfg evs' a := by
  cases a with
  | forwarded k n => exact Quorate.mono h hs
  | applied k r => exact ⟨h.1, h.2.mono hs⟩
  | _ => trivial

theorem VInv.mono {cfg : Cfg} {evs evs' : List Event} {s : State} (h : VInv cfg evs s)
    (hs : ∀ e ∈ evs, e ∈ evs') : VInv cfg evs' s :=
  ⟨fun k st hst => (h.recs k st hst).mono hs, fun a ha => (h.log a ha).mono hs⟩

variable {cfg : Cfg} {evs : List Event} {s : State}

theorem VInv.update (h : VInv cfg evs s) (k : Key) (f : ReqState → ReqState)
    (hf : ∀ st, s.requests.get? k = some st → VRec cfg evs k st → VRec cfg evs k (f st)) :
    VInv cfg evs (s.update k f) := by
  unfold State.update
  split
  · exact h
  · next st hst =>
    refine ⟨fun j st' hj => ?_, h.log⟩
    simp only [Dict.get?_set] at hj
    split at hj
    · next e =>
      subst e
      cases hj
      exact hf st hst (h.recs _ _ hst)
    · exact h.recs j st' hj

theorem VInv.of_eq {t : State} (h : VInv cfg evs s) (h1 : t.requests = s.requests)
    (h2 : t.log = s.log) : VInv cfg evs t :=
  ⟨fun k st hst => h.recs k st (h1 ▸ hst), fun a ha => h.log a (h2 ▸ ha)⟩

theorem VInv.snoc (h : VInv cfg evs s) (a : Act) (ha : Backed cfg evs a) :
    VInv cfg evs { s with log := s.log ++ [a] } := by
  refine ⟨h.recs, fun b hb => ?_⟩
  rcases List.mem_append.1 hb with hb | hb
  · exact h.log b hb
  · simp at hb; exact hb ▸ ha

theorem VInv.erase (h : VInv cfg evs s) (k : Key) (a : Act) (ha : Backed cfg evs a) :
    VInv cfg evs { s with requests := s.requests.erase k, log := s.log ++ [a] } := by
  refine ⟨fun j st hj => ?_, (h.snoc a ha).log⟩
  simp only [Dict.get?_erase] at hj
  split at hj
  · exact absurd hj (by simp)
  · exact h.recs j st hj

theorem VInv.clean (h : VInv cfg evs s) (k : Key) : VInv cfg evs (s.clean k) := by
  unfold State.clean
  split
  · exact h
  · split
    · exact h.erase k _ trivial
    · exact h

theorem VInv.forceFree (h : VInv cfg evs s) (k : Key) : VInv cfg evs (s.forceFree k) := by
  unfold State.forceFree
  split
  · exact h.erase k _ trivial
  · exact h

theorem VInv.update_same (h : VInv cfg evs s) (k : Key) (f : ReqState → ReqState)
    (hf : ∀ st, (f st).propagates = st.propagates ∧ (f st).finalised = st.finalised ∧
      (f st).forwarded = st.forwarded ∧ (f st).request = st.request) : VInv cfg evs (s.update k f) := by
  refine h.update k f (fun st _ hv => ?_)
  obtain ⟨h1, h2, h3, h4⟩ := hf st
  exact ⟨h1 ▸ hv.nodup, by rw [h1]; exact hv.votes, by rw [h4]; exact hv.req, by rw [h2]; exact hv.fin, by rw [h2, h3]; exact hv.fwd⟩

theorem VInv.markExecuted (h : VInv cfg evs s) (k : Key) : VInv cfg evs (s.markExecuted k) := by
  unfold State.markExecuted
  split
  · exact ((h.snoc (.executed k) trivial).update_same k _ (by simp)).clean k
  · exact h

theorem VInv.free (h : VInv cfg evs s) (i : Inst) (k : Key) : VInv cfg evs (s.free i k) := by
  unfold State.free
  split
  · exact ((h.snoc (.freed i k) trivial).update_same k _ (by simp)).clean k
  · exact h

theorem VInv.add (h : VInv cfg evs s) (r : Req) (hr : Came cfg evs r) : VInv cfg evs (s.add cfg r) := by
  unfold State.add
  split
  · exact h
  · refine ⟨fun j st hj => ?_, (h.snoc (.added (cfg.digest r)) trivial).log⟩
    simp only [Dict.get?_set] at hj
    split at hj
    · next e =>
      cases hj
      exact ⟨by simp [Dict.keys], by simp, ⟨e, hr⟩, by simp, by simp⟩
    · exact h.recs j st hj

theorem VInv.addPropagate (h : VInv cfg evs s) (r : Req) (f : Sender)
    (hf : SentBy cfg evs r f ∨ (f = .str cfg.name ∧ Came cfg evs r)) :
    VInv cfg evs (s.addPropagate cfg r f) := by
  refine (h.add r (hf.elim SentBy.came (·.2))).update _ _
    (fun st _ hv => ⟨?_, fun v r' hm => ?_, hv.req, hv.fin, hv.fwd⟩)
  · exact Dict.nodup_keys_set hv.nodup ..
  · rcases Dict.mem_set hm with hm | hm
    · exact hv.votes v r' hm
    · cases hm; exact ⟨rfl, hf⟩

theorem VInv.propagate (h : VInv cfg evs s) (r : Req) (hf : Came cfg evs r) :
    VInv cfg evs (s.propagate cfg r) := by
  unfold State.propagate
  split
  · exact h
  · exact (h.addPropagate r _ (.inr ⟨rfl, hf⟩)).of_eq rfl rfl

/-- A request finalised has enough distinct text senders with its digest. -/
theorem reqWithQuorum_some {q : Quorum} {ps : List (Sender × Req)} {seen : List Key} {r : Req}
    (h : reqWithQuorum cfg q ps seen = some r) (hn : (ps.map Prod.fst).Nodup) :
    (∃ v, (v, r) ∈ ps) ∧ ∃ vs : List Nat, vs.Nodup ∧
      vs.length + seen.count (cfg.digest r) ≥ q.value ∧
      ∀ v ∈ vs, ∃ r', (Sender.str v, r') ∈ ps ∧ cfg.digest r' = cfg.digest r := by
  induction ps generalizing seen with
  | nil => simp [reqWithQuorum] at h
  | cons p ps ih =>
    obtain ⟨v, x⟩ := p
    simp only [List.map_cons, List.nodup_cons] at hn
    cases v with
    | bytes b =>
      simp only [reqWithQuorum] at h
      obtain ⟨⟨v, hv⟩, vs, h1, h2, h3⟩ := ih h hn.2
      refine ⟨⟨v, List.mem_cons_of_mem _ hv⟩, vs, h1, h2, fun v hv => ?_⟩
      obtain ⟨r', h4, h5⟩ := h3 v hv
      exact ⟨r', List.mem_cons_of_mem _ h4, h5⟩
    | str b =>
      simp only [reqWithQuorum] at h
      split at h
      · next hq =>
        cases h
        refine ⟨⟨.str b, List.mem_cons_self⟩, [b], by simp, ?_, ?_⟩
        · simp [Quorum.isReached] at hq
          simp; omega
        · intro v hv
          simp at hv
          subst hv
          exact ⟨_, List.mem_cons_self, rfl⟩
      · obtain ⟨⟨v, hv⟩, vs, h1, h2, h3⟩ := ih h hn.2
        by_cases hx : cfg.digest x = cfg.digest r
        · refine ⟨⟨v, List.mem_cons_of_mem _ hv⟩, b :: vs, ?_, ?_, fun v hv => ?_⟩
          · refine List.nodup_cons.2 ⟨fun hb => ?_, h1⟩
            obtain ⟨r', h4, -⟩ := h3 b hb
            exact hn.1 (List.mem_map.2 ⟨_, h4, rfl⟩)
          · rw [hx, List.count_cons_self] at h2
            simp; omega
          · rcases List.mem_cons.1 hv with hv | hv
            · subst hv; exact ⟨x, List.mem_cons_self, hx⟩
            · obtain ⟨r', h4, h5⟩ := h3 v hv
              exact ⟨r', List.mem_cons_of_mem _ h4, h5⟩
        · refine ⟨⟨v, List.mem_cons_of_mem _ hv⟩, vs, h1, ?_, fun v hv => ?_⟩
          · rw [List.count_cons_of_ne (fun e => hx e)] at h2
            exact h2
          · obtain ⟨r', h4, h5⟩ := h3 v hv
            exact ⟨r', List.mem_cons_of_mem _ h4, h5⟩

theorem VInv.tryForwarding (h : VInv cfg evs s) (r : Req) : VInv cfg evs (s.tryForwarding cfg r) := by
  unfold State.tryForwarding
  split
  · exact h
  · next fin hc =>
    obtain ⟨st, h1, h2, h3⟩ := canForward_some hc
    have hv := h.recs _ _ h1
    obtain ⟨⟨v, hm⟩, vs, h4, h5, h6⟩ := reqWithQuorum_some h3 hv.nodup
    obtain ⟨h7, h8⟩ := hv.votes _ _ hm
    have hq : Quorate cfg evs (cfg.digest r) := by
      refine ⟨vs, h4, by simpa using h5, fun v hv' => ?_⟩
      obtain ⟨r', h9, h10⟩ := h6 v hv'
      obtain ⟨h11, h12⟩ := hv.votes _ _ h9
      exact ⟨r', h11, h12⟩
    have hs : VInv cfg evs (s.setFinalised cfg fin) := by
      unfold State.setFinalised
      rw [h7]
      refine h.update _ _ (fun st' _ hv' => ⟨hv'.nodup, hv'.votes, hv'.req, fun r' e => ?_, fun _ => rfl⟩)
      simp at e
      subst e
      exact ⟨h7, h8.elim SentBy.came (·.2), hq⟩
    have hfin : ∀ st', (s.setFinalised cfg fin).requests.get? (cfg.digest r) = some st' →
        st'.finalised.isSome = true := by
      intro st' e
      unfold State.setFinalised State.update at e
      rw [h7, h1] at e
      simp only [Dict.get?_set, if_true] at e
      cases e
      rfl
    unfold State.forward
    have hl := hs.snoc (.forwarded (cfg.digest r) (s.setFinalised cfg fin).numReplicas) hq
    exact hl.update _ _ (fun st' hst' hv' => ⟨hv'.nodup, hv'.votes, hv'.req, hv'.fin, fun _ => hfin st' hst'⟩)

theorem VInv.processPropagate (h : VInv cfg evs s) (r : Req) (f : Sender) (hf : SentBy cfg evs r f) :
    VInv cfg evs (s.processPropagate cfg r f) := by
  unfold State.processPropagate
  split
  · exact h
  · split
    · exact h
    · next t ht =>
      obtain ⟨h1, h2, -⟩ := startProcessing_eq ht
      have h0 : VInv cfg evs t := h.of_eq h1 h2
      exact ((h0.addPropagate r f (.inl hf)).propagate r hf.came).tryForwarding r

theorem VInv.step (h : VInv cfg evs s) (e : Event) : VInv cfg (evs ++ [e]) (s.step cfg e) := by
  have h := h.mono (evs' := evs ++ [e]) (fun x hx => List.mem_append_left _ hx)
  have he : e ∈ evs ++ [e] := by simp
  cases e with
  | client r =>
    simp only [State.step, State.client]
    split
    · exact h
    · next ha =>
      have ha : cfg.authentic r = true := by simpa using ha
      have hc : Came cfg (evs ++ [Event.client r]) r := .inl ⟨he, ha⟩
      split
      · exact h
      · split
        · exact h
        · next t ht =>
          obtain ⟨h1, h2, -⟩ := startProcessing_eq ht
          have h0 : VInv cfg (evs ++ [Event.client r]) t := h.of_eq h1 h2
          exact ((h0.add r hc).propagate r hc).tryForwarding r
  | propagate r f =>
    simp only [State.step, State.onPropagate]
    split
    · exact h
    · next ha => exact h.processPropagate r f (.inl ⟨he, by simpa using ha⟩)
  | reply r f => exact h.processPropagate r f (.inr he)
  | proposed k =>
    simp only [State.step, State.onProposed]
    split
    · exact h
    · next st hst => exact h.snoc _ (h.recs k st hst).req
  | executed k p =>
    simp only [State.step, State.execute]
    apply VInv.markExecuted
    cases p <;> exact h.of_eq rfl rfl
  | ordered k => exact h.update_same _ _ (by simp)
  | released i k =>
    simp only [State.step]
    exact (VInv.update_same h _ _ (by simp) : VInv cfg _ (s.orderedBy k)).free i k
  | caughtUp k p =>
    simp only [State.step, State.caughtUp]
    have h : VInv cfg (evs ++ [Event.caughtUp k p]) { s with known := p :: s.known } :=
      h.of_eq rfl rfl
    split
    · exact h
    · next st hst =>
      have h2 : VInv cfg (evs ++ [Event.caughtUp k p]) (if st.forwarded = true ∧ ¬st.executed = true then
          ((((({ s with known := p :: s.known } : State).markExecuted k).orderedBy k).free 0 k).done k)
          else { s with known := p :: s.known }) := by
        split
        · have h3 := h.markExecuted k
          have h4 : VInv cfg (evs ++ [Event.caughtUp k p])
              ((({ s with known := p :: s.known } : State).markExecuted k).orderedBy k) :=
            h3.update_same _ _ (by simp)
          exact (h4.free 0 k).of_eq rfl rfl
        · exact h
      split
      · exact (h2.forceFree k).of_eq rfl rfl
      · exact h2
  | outdated k => exact (h.forceFree k).of_eq rfl rfl
  | replicas n => exact h.of_eq rfl rfl

theorem vinv_run (cfg : Cfg) (evs : List Event) : VInv cfg evs (run cfg evs) := by
  have : ∀ (evs pre : List Event) (s : State), VInv cfg pre s →
      VInv cfg (pre ++ evs) (evs.foldl (State.step cfg) s) := by
    intro evs
    induction evs with
    | nil => intro pre s h; simpa using h
    | cons e evs ih =>
      intro pre s h
      have := ih (pre ++ [e]) _ (h.step e)
      simpa using this
  exact this evs [] {} ⟨by simp, by simp⟩

/-! ## Executed requests are not taken up again -/

/-- The digest `k` cannot be handed to the instances any more, and the log holds
no more hand-overs of it than `l`. -/
structure Shut (cfg : Cfg) (k : Key) (p : Key) (n : Nat) (s : State) : Prop where
  known : p ∈ s.known
  idle : k ∉ s.processing
  count : (s.log.filter (fun a => match a with | .forwarded j _ => j = k | _ => false)).length = n

theorem shut_of_eq {k p : Key} {n : Nat} {s t : State} (h : Shut cfg k p n s)
    (h1 : ∀ q ∈ s.known, q ∈ t.known) (h2 : ∀ j ∈ t.processing, j ∈ s.processing)
    (h3 : t.log.filter (fun a => match a with | .forwarded j _ => j = k | _ => false) =
      s.log.filter (fun a => match a with | .forwarded j _ => j = k | _ => false)) : Shut cfg k p n t :=
  ⟨h1 _ h.known, fun hk => h.idle (h2 _ hk), by rw [h3]; exact h.count⟩

section
variable {k p : Key} {n : Nat}

theorem Shut.update (h : Shut cfg k p n s) (j : Key) (f : ReqState → ReqState) :
    Shut cfg k p n (s.update j f) := by
  unfold State.update; split
  · exact h
  · exact shut_of_eq h (by simp) (by simp) rfl

theorem Shut.clean (h : Shut cfg k p n s) (j : Key) : Shut cfg k p n (s.clean j) := by
  unfold State.clean; split
  · exact h
  · split
    · exact shut_of_eq h (by simp) (by simp) (by simp)
    · exact h

theorem Shut.forceFree (h : Shut cfg k p n s) (j : Key) : Shut cfg k p n (s.forceFree j) := by
  unfold State.forceFree; split
  · exact shut_of_eq h (by simp) (by simp) (by simp)
  · exact h

theorem Shut.markExecuted (h : Shut cfg k p n s) (j : Key) : Shut cfg k p n (s.markExecuted j) := by
  unfold State.markExecuted; split
  · exact ((shut_of_eq (t := { s with log := s.log ++ [Act.executed j] }) h (by simp) (by simp) (by simp)).update _ _).clean j
  · exact h

theorem Shut.free (h : Shut cfg k p n s) (i : Inst) (j : Key) : Shut cfg k p n (s.free i j) := by
  unfold State.free; split
  · exact ((shut_of_eq (t := { s with log := s.log ++ [Act.freed i j] }) h (by simp) (by simp) (by simp)).update _ _).clean j
  · exact h

theorem Shut.done (h : Shut cfg k p n s) (j : Key) : Shut cfg k p n (s.done j) :=
  shut_of_eq h (by simp [State.done]) (by simp [State.done]; intro j hj _; exact hj) rfl

theorem Shut.add (h : Shut cfg k p n s) (r : Req) : Shut cfg k p n (s.add cfg r) := by
  unfold State.add; split
  · exact h
  · exact shut_of_eq h (by simp) (by simp) (by simp)

theorem Shut.addPropagate (h : Shut cfg k p n s) (r : Req) (f : Sender) :
    Shut cfg k p n (s.addPropagate cfg r f) := (h.add r).update _ _

theorem Shut.propagate (h : Shut cfg k p n s) (r : Req) : Shut cfg k p n (s.propagate cfg r) := by
  unfold State.propagate; split
  · exact h
  · exact shut_of_eq (h.addPropagate r _) (by simp) (by simp) rfl

theorem Shut.tryForwarding (h : Shut cfg k p n s) (r : Req) (hr : cfg.digest r ≠ k) :
    Shut cfg k p n (s.tryForwarding cfg r) := by
  unfold State.tryForwarding; split
  · exact h
  · unfold State.forward State.setFinalised
    apply Shut.update
    refine shut_of_eq (h.update _ _) (fun _ h => h) (fun _ h => h) ?_
    simp [List.filter_append, hr]

theorem Shut.start {t : State} (h : Shut cfg k p n s) {r : Req} (ht : s.startProcessing cfg r = some t)
    (hr : cfg.digest r ≠ k) : Shut cfg k p n t := by
  unfold State.startProcessing at ht
  split at ht
  · cases ht; exact h
  · simp only at ht
    split at ht
    · cases ht
      refine ⟨h.known, ?_, h.count⟩
      simp only [List.mem_append, List.mem_singleton, not_or]
      exact ⟨h.idle, fun e => hr e.symm⟩
    · exact absurd ht (by simp)

theorem Shut.processPropagate (h : Shut cfg k p n s) (hp : ∀ r, cfg.digest r = k → cfg.payload r = p)
    (r : Req) (f : Sender) : Shut cfg k p n (s.processPropagate cfg r f) := by
  unfold State.processPropagate
  split
  · exact h
  · next hk =>
    have hr : cfg.digest r ≠ k := fun e => hk (by rw [hp r e, e]; exact ⟨h.idle, h.known⟩)
    split
    · exact h
    · next t ht => exact (((h.start ht hr).addPropagate r f).propagate r).tryForwarding r hr

theorem Shut.step (h : Shut cfg k p n s) (hp : ∀ r, cfg.digest r = k → cfg.payload r = p) (e : Event) :
    Shut cfg k p n (s.step cfg e) := by
  cases e with
  | client r =>
    simp only [State.step, State.client]
    split
    · exact h
    · split
      · exact h
      · next hk =>
        have hr : cfg.digest r ≠ k := fun e => hk (by rw [hp r e]; exact h.known)
        split
        · exact h
        · next t ht => exact (((h.start ht hr).add r).propagate r).tryForwarding r hr
  | propagate r f =>
    simp only [State.step, State.onPropagate]
    split
    · exact h
    · exact h.processPropagate hp r f
  | reply r f => exact h.processPropagate hp r f
  | proposed j =>
    simp only [State.step, State.onProposed]
    split
    · exact h
    · exact shut_of_eq h (by simp) (by simp) (by simp)
  | executed j q =>
    simp only [State.step, State.execute]
    apply Shut.markExecuted
    cases q with
    | none => exact h.done j
    | some q =>
      refine Shut.done (s := { s with known := q :: s.known }) ?_ j
      exact shut_of_eq h (by intro x hx; exact List.mem_cons_of_mem _ hx) (by simp) rfl
  | ordered j => exact h.update _ _
  | released i j => exact (Shut.update h _ _ : Shut cfg k p n (s.orderedBy j)).free i j
  | caughtUp j q =>
    simp only [State.step, State.caughtUp]
    have h : Shut cfg k p n { s with known := q :: s.known } :=
      shut_of_eq h (by intro x hx; exact List.mem_cons_of_mem _ hx) (by simp) rfl
    split
    · exact h
    · next st hst =>
      have h2 : Shut cfg k p n (if st.forwarded = true ∧ ¬st.executed = true then
          ((((({ s with known := q :: s.known } : State).markExecuted j).orderedBy j).free 0 j).done j)
          else { s with known := q :: s.known }) := by
        split
        · have h4 : Shut cfg k p n ((({ s with known := q :: s.known } : State).markExecuted j).orderedBy j) :=
            (h.markExecuted j).update _ _
          exact (h4.free 0 j).done j
        · exact h
      split
      · exact (h2.forceFree j).done j
      · exact h2
  | outdated j => exact (h.forceFree j).done j
  | replicas m => exact shut_of_eq h (by simp [State.step]) (by simp [State.step]) rfl

theorem Shut.run (h : Shut cfg k p n s) (hp : ∀ r, cfg.digest r = k → cfg.payload r = p)
    (evs : List Event) : Shut cfg k p n (evs.foldl (State.step cfg) s) := by
  induction evs generalizing s with
  | nil => exact h
  | cons e evs ih => exact ih (h.step hp e)

end

end Verif.Propagator
