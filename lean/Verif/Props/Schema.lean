import Verif.Proofs.SchemaAgain
import Verif.Proofs.Entry
import Verif.Model.Handled
/-!
# C87: what a peer's message contains

Whatever object a peer sends as a message is either refused with a `TypeError` or gives a message
all of whose fields have the declared types and ranges, that contains nothing else, and that can
be written out again and read back.
-/
namespace Verif.Props

open Verif (Val ascii)
open Verif.Spec (WF)
open Verif.Entry (Bytes Items OP Facts Place NodeMsg)
open Verif.Entry.Spec (Field NoField)
open Verif.Schema (Msg Exc build asDict)
open Verif.Schema.Spec (Need messages Declared Unpack Unwritable)

attribute [local irreducible] ascii

/-- **C87, acceptance.** A message is built of an object exactly if the object has the declared
form of a type of messages. -/
theorem C87_accepted (env : Schema.Env) (op : Bytes) (d : Items) (hd : WF (.dict d)) :
    (∃ m, build env op d = .ok m) ↔ ∃ k, op = ascii k ∧ Declared env k d :=
  Schema.accepted_iff env op hd

/-- **C87, contents.** The message has the fields of its type that the object has, with their
values and in the order of the declaration, and no others. -/
theorem C87_contents (env : Schema.Env) (k : String) (t : List Need) (ht : (k, t) ∈ messages env) (d : Items)
    (m : Msg) (hd : WF (.dict d)) (h : build env (ascii k) d = .ok m) :
    m.op = ascii k ∧ (m.fields.map Prod.fst).Sublist (t.map (fun n => ascii n.name)) ∧
    ∀ f v, Field m.fields f v ↔ (∃ n ∈ t, f = ascii n.name) ∧ Field d f v := by
  obtain ⟨s, k', t', h1, h2, h3, h4, h5, h6, h7, h8, h9, h10, h11, h12⟩ := Schema.built hd h
  obtain ⟨rfl, rfl⟩ := h6 _ _ ht rfl
  rw [Schema.lines_names h5] at h9
  refine ⟨h7, h9, fun f v => ⟨fun hf => ?_, ?_⟩⟩
  · have := h9.subset (List.mem_map_of_mem (f := Prod.fst) (Schema.field_mem hf))
    obtain ⟨n, hn, rfl⟩ := List.mem_map.1 this
    exact ⟨⟨n, hn, rfl⟩, (h10 n hn v).1 hf⟩
  · rintro ⟨⟨n, hn, rfl⟩, hf⟩
    exact (h10 n hn v).2 hf

/-- **C87, refusals.** What is not accepted raises `TypeError`, except for a PREPREPARE with a
multi-signature of a wrong length. -/
theorem C87_refused_partial (env : Schema.Env) (op : Bytes) (d : Items) (hd : WF (.dict d)) (x : Exc)
    (h : build env op d = .error x) (hu : ¬ (op = ascii "PREPREPARE" ∧ Unpack env d)) : x = .typeError := by
  cases x with
  | typeError => rfl
  | valueError => exact absurd ((Schema.build_value env op hd).1 h) hu
  | attributeError => exact absurd h (Schema.build_attribute env op d)

/-- **C87, other refusals.** Exactly when something else is raised, and what. -/
theorem C87_value_error (env : Schema.Env) (op : Bytes) (d : Items) (hd : WF (.dict d)) (x : Exc) (hx : x ≠ .typeError) :
    build env op d = .error x ↔ x = .valueError ∧ op = ascii "PREPREPARE" ∧ Unpack env d := by
  cases x with
  | typeError => exact absurd rfl hx
  | valueError => simp only [true_and]; exact Schema.build_value env op hd
  | attributeError => simp [Schema.build_attribute env op d]

/-- **C87, writing out.** Exactly which accepted messages cannot be written out: then
`_asdict` raises `AttributeError`. -/
theorem C87_unwritable (env : Schema.Env) (op : Bytes) (d : Items) (m : Msg) (hd : WF (.dict d))
    (h : build env op d = .ok m) (x : Exc) :
    asDict m = .error x ↔ x = .attributeError ∧ ∃ k, op = ascii k ∧ Unwritable k d :=
  Schema.asDict_error hd h x

/-- **C87, sending on.** A message that can be written out, which is to say that is no VIEW_CHANGE
with checkpoints none of which is an object and no NEW_VIEW with a checkpoint that is none, is
accepted when it is read back, and is written out then as the same object: nodes that send it on
agree on its digest. -/
theorem C87_sent_on_partial (env : Schema.Env) (op : Bytes) (d : Items) (m : Msg) (hd : WF (.dict d))
    (h : build env op d = .ok m) (hu : ∀ k, op = ascii k → ¬ Unwritable k d) :
    ∃ e, asDict m = .ok e ∧ WF (.dict e) ∧ Field e OP (.str op) ∧
      ∃ m', build env op e = .ok m' ∧ asDict m' = .ok e := by
  cases he : asDict m with
  | error x =>
    obtain ⟨_, k, h1, h2⟩ := (Schema.asDict_error hd h x).1 he
    exact absurd h2 (hu k h1)
  | ok e =>
    obtain ⟨h1, F, h2, h3, h4⟩ := Schema.resend hd h he
    exact ⟨e, rfl, h1, ⟨[], F, h2, by simp⟩, _, h3, h4⟩

/-- **C87, sending on, unchanged.** For every other type the message that is read back is the
message that was sent. -/
theorem C87_sent_on_same (env : Schema.Env) (op : Bytes) (d : Items) (m : Msg) (hd : WF (.dict d))
    (h : build env op d = .ok m) (h1 : op ≠ ascii "VIEW_CHANGE") (h2 : op ≠ ascii "NEW_VIEW") :
    ∃ e, asDict m = .ok e ∧ build env op e = .ok m := by
  have hop : m.op = op := by
    obtain ⟨_, _, _, _, _, _, _, _, _, h7, _⟩ := Schema.built hd h
    exact h7
  have he : asDict m = .ok ((OP, .str op) :: m.fields) := by
    unfold asDict
    rw [hop, if_neg (by simpa using h1), if_neg (by simpa using h2)]
    unfold Schema.baseDict
    rw [hop]
  obtain ⟨_, F, e1, e2, _⟩ := Schema.resend hd h he
  refine ⟨_, he, ?_⟩
  rw [e2]
  have := (List.cons.inj e1).2
  cases m
  simp_all

/-! ### The inboxes -/

/-- Every message in an inbox was built by the factory. -/
def Built (env : Schema.Env) (s : Entry.St) : Prop :=
  (∀ e ∈ s.nodeIn, ∃ m, build env e.1.op e.1.body = .ok m) ∧
  ∀ e ∈ s.clientIn, ∀ x, e.1 = .node x → ∃ m, build env x.op x.body = .ok m

theorem validateNode_fits {cfg : Entry.Cfg} {env : Entry.Env} {v : Val} {frm : Bytes} {m : NodeMsg}
    (h : Entry.validateNode cfg env v frm = some m) : cfg.fits m.op m.body = true := by
  unfold Entry.validateNode at h
  split at h
  · cases h
  · split at h
    · split at h
      · split at h
        · rename_i hc
          split at h
          · cases h
            simp only [Bool.and_eq_true] at hc
            have := hc.2
            unfold Entry.accepts at this
            simp only [Bool.and_eq_true] at this
            exact this.1
          · cases h
        · cases h
      · cases h
    · cases h

theorem validateOp_fits {cfg : Entry.Cfg} {d : Items} {m : NodeMsg} (h : Entry.validateOp cfg d = .node m) :
    cfg.fits m.op m.body = true := by
  unfold Entry.validateOp at h
  split at h
  · split at h
    · split at h
      · rename_i hc
        split at h
        · cases h
        · cases h
          unfold Entry.accepts at hc
          simp only [Bool.and_eq_true] at hc
          exact hc.1
      · cases h
    · cases h
  · cases h

theorem validateClient_fits {cfg : Entry.Cfg} {env : Entry.Env} {v : Val} {frm : Bytes} {m : NodeMsg}
    (h : Entry.validateClient cfg env v frm = .node m) : cfg.fits m.op m.body = true := by
  unfold Entry.validateClient at h
  split at h
  · cases h
  · split at h
    · split at h
      · cases h
      · split at h
        · unfold Entry.validateRequest at h
          split at h
          · cases h
          · split at h <;> cases h
        · exact validateOp_fits h
    · cases h

theorem Built.node {cfg : Entry.Cfg} {senv : Schema.Env} (hf : ∀ op d, cfg.fits op d = true → ∃ m, build senv op d = .ok m)
    {env : Entry.Env} {frm : Bytes} {n : Nat} {s : Entry.St} {v : Val} (h : Built senv s) :
    Built senv (Entry.handleNode cfg env frm n s v).1 := by
  refine Entry.handleNode_keeps (Q := Built senv) cfg env frm ?_ n s v h
  intro s v m hs hv _
  refine ⟨?_, hs.2⟩
  intro e he
  rcases List.mem_append.1 he with he | he
  · exact hs.1 e he
  · rw [List.mem_singleton.1 he]
    exact hf _ _ (validateNode_fits hv)

theorem Built.client {cfg : Entry.Cfg} {senv : Schema.Env} (hf : ∀ op d, cfg.fits op d = true → ∃ m, build senv op d = .ok m)
    {env : Entry.Env} {frm : Bytes} {n : Nat} {s : Entry.St} {v : Val} (h : Built senv s) :
    Built senv (Entry.handleClient cfg env frm n s v).1 := by
  refine Entry.handleClient_keeps (Q := Built senv) cfg env frm (fun _ _ h => h) ?_ ?_ n s v h
  · intro s d hs
    refine ⟨hs.1, ?_⟩
    intro e he m hm
    rcases List.mem_append.1 he with he | he
    · exact hs.2 e he m hm
    · rw [List.mem_singleton.1 he] at hm; cases hm
  · intro s v m hs hv
    refine ⟨hs.1, ?_⟩
    intro e he m' hm
    rcases List.mem_append.1 he with he | he
    · exact hs.2 e he m' hm
    · rw [List.mem_singleton.1 he] at hm
      cases hm
      exact hf _ _ (validateClient_fits hv)

theorem Built.step {cfg : Entry.Cfg} {senv : Schema.Env} (hf : ∀ op d, cfg.fits op d = true → ∃ m, build senv op d = .ok m)
    {s : Entry.St} (h : Built senv s) (e : Entry.Ev) : Built senv (Entry.step cfg s e) := by
  cases e with
  | arrive c m i =>
    show Built senv (Entry.arrive cfg c s m i)
    unfold Entry.arrive
    split
    · exact h
    · split
      · exact h
      · split
        · split <;> exact h
        · split <;> exact h
  | nodeOne env =>
    unfold Entry.step
    simp only
    split
    · exact h
    · split
      · exact h
      · unfold Entry.nodeOne
        split
        · exact h
        · split
          · split <;> exact h
          · split
            · exact h
            · split
              · exact h
              · split
                · exact h
                · split
                  · exact Built.node hf (env := env) (s := { s with nodeRx := _ }) h
                  · exact h
  | clientOne env =>
    unfold Entry.step
    simp only
    split
    · exact h
    · split
      · exact h
      · unfold Entry.clientOne
        split
        · exact h
        · split
          · exact h
          · split
            · exact h
            · split
              · exact Built.client hf (env := env) (s := { s with clientRx := _ }) h
              · exact h
  | route raises =>
    show Built senv (if s.stopped then s else Entry.routeOne raises s)
    unfold Entry.routeOne
    split
    · exact h
    · split
      · exact h
      · rename_i hs
        exact ⟨fun e he => h.1 e (by rw [hs]; exact List.mem_cons_of_mem _ he), h.2⟩

theorem Built.foldl {cfg : Entry.Cfg} {senv : Schema.Env} (hf : ∀ op d, cfg.fits op d = true → ∃ m, build senv op d = .ok m) :
    ∀ (l : List Entry.Ev) (s : Entry.St), Built senv s → Built senv (l.foldl (Entry.step cfg) s)
  | [], _, h => h
  | e :: l, _, h => Built.foldl hf l _ (h.step hf e)

/-- **C87, inboxes.** In every history, whatever peers and clients send, every message in an inbox
has the declared form of its type. (JSON objects have no key twice: `WF`.) -/
theorem C87_inboxes (cfg : Entry.Cfg) (senv : Schema.Env)
    (hf : ∀ op d, cfg.fits op d = true ↔ ∃ m, build senv op d = .ok m) (l : List Entry.Ev) :
    (∀ e ∈ (Entry.run cfg l).nodeIn, WF (.dict e.1.body) → ∃ k, e.1.op = ascii k ∧ Declared senv k e.1.body) ∧
    ∀ e ∈ (Entry.run cfg l).clientIn, ∀ x, e.1 = .node x → WF (.dict x.body) →
      ∃ k, x.op = ascii k ∧ Declared senv k x.body := by
  have h := Built.foldl (cfg := cfg) (senv := senv) (fun op d => (hf op d).1) l {} ⟨by simp, by simp⟩
  exact ⟨fun e he hw => (C87_accepted senv _ _ hw).1 (h.1 e he),
    fun e he x hx hw => (C87_accepted senv _ _ hw).1 (h.2 e he x hx)⟩

/-! ### What stops a node -/

theorem reaches_iff (F : Facts) (p : Items) : Entry.reaches F (Entry.get p (ascii "instId")) = true ↔
    NoField p (ascii "instId") ∨ Field p (ascii "instId") .none ∨
      ∃ v, Field p (ascii "instId") v ∧ ∃ i ∈ F.insts, Entry.eqInt F v i = true := by
  unfold Entry.reaches
  simp only [Bool.or_eq_true, beq_iff_eq, List.any_eq_true]
  rcases Schema.field_or p (ascii "instId") with ⟨v, hv⟩ | hv
  · rw [Schema.get_field hv]
    constructor
    · rintro (rfl | h)
      · exact .inr (.inl hv)
      · exact .inr (.inr ⟨v, hv, h⟩)
    · rintro (h | h | ⟨w, hw, h⟩)
      · exact absurd h (Schema.field_not_noField hv)
      · exact .inl (Schema.field_unique hv h)
      · rw [Schema.field_unique hv hw]; exact .inr h
  · rw [Schema.noField_get hv]
    simp [hv]

/-- An answer that raises where nothing catches: an unpackable PREPREPARE, or a VIEW_CHANGE that is
accepted and cannot be written out. -/
def FatalAnswer (senv : Schema.Env) (typ : String) (d : Items) : Prop :=
  (typ = "PREPREPARE" ∧ Unpack senv d) ∨
  (typ = "VIEW_CHANGE" ∧ Declared senv typ d ∧ Unwritable typ d)

theorem answers_types : "PREPREPARE" ∈ Schema.types ∧ "VIEW_CHANGE" ∈ Schema.types ∧
    "NEW_VIEW" ∈ Schema.types ∧ "PREPARE" ∈ Schema.types ∧ "COMMIT" ∈ Schema.types := by
  simp [Schema.types]

theorem extract_iff {senv : Schema.Env} {P : Place} {typ : String} {d : Items} (hd : WF (.dict d))
    (ht : typ ∈ ["PREPREPARE", "PREPARE", "COMMIT", "VIEW_CHANGE", "NEW_VIEW"]) :
    Entry.extractRaises senv P (ascii typ) (.dict d) = true ↔ FatalAnswer senv typ d ∨
      ((typ = "VIEW_CHANGE" → ¬ Unwritable typ d) ∧ ∃ m, build senv (ascii typ) d = .ok m ∧ P.later m = true) := by
  have hty : typ ∈ Schema.types := by
    obtain ⟨a, b, c, e, f⟩ := answers_types
    simp only [List.mem_cons, List.not_mem_nil, or_false] at ht
    rcases ht with rfl | rfl | rfl | rfl | rfl <;> assumption
  have hinj : ∀ s ∈ Schema.types, (ascii typ = ascii s ↔ typ = s) := by
    intro s hs
    have := Schema.ascii_beq hty hs
    constructor
    · intro h
      rw [h] at this
      simpa using this.symm
    · rintro rfl; rfl
  unfold FatalAnswer Entry.extractRaises
  simp only
  cases hb : build senv (ascii typ) d with
  | error x =>
    have hacc : ¬ Declared senv typ d := fun h => by
      obtain ⟨m, hm⟩ := (C87_accepted senv (ascii typ) d hd).2 ⟨typ, rfl, h⟩
      rw [hm] at hb; cases hb
    simp only [hacc, false_and, and_false, or_false, reduceCtorEq]
    have hv := Schema.build_value senv (ascii typ) hd
    rw [hb, hinj _ answers_types.1] at hv
    rw [← hv]
    cases x with
    | typeError => simp
    | valueError => simp
    | attributeError => exact absurd hb (Schema.build_attribute senv _ _)
  | ok m =>
    have hdec : Declared senv typ d := by
      obtain ⟨k, hk, h⟩ := (C87_accepted senv (ascii typ) d hd).1 ⟨m, hb⟩
      obtain ⟨_, ⟨t, h3, _⟩, _⟩ := id h
      rw [(hinj k (Schema.name_ok h3).2).1 hk]
      exact h
    have hnu : ¬ (typ = "PREPREPARE" ∧ Unpack senv d) := by
      rintro ⟨rfl, h⟩
      have := (Schema.build_value senv (ascii "PREPREPARE") hd).2 ⟨rfl, h⟩
      rw [hb] at this; cases this
    have hbeq : (ascii typ == ascii "VIEW_CHANGE") = decide (typ = "VIEW_CHANGE") :=
      Schema.ascii_beq hty answers_types.2.1
    have hex : (∃ m', (Except.ok m : Except Exc Msg) = .ok m' ∧ P.later m' = true) ↔ P.later m = true :=
      ⟨by rintro ⟨_, h, h'⟩; cases h; exact h', fun h => ⟨m, rfl, h⟩⟩
    rw [hex, hbeq]
    simp only [hnu, false_or, hdec, true_and, decide_eq_true_eq]
    by_cases hvc : typ = "VIEW_CHANGE"
    · subst hvc
      simp only [if_true, true_and, true_implies]
      have hu : ∀ x, asDict m = .error x ↔ x = .attributeError ∧ Unwritable "VIEW_CHANGE" d := by
        intro x
        rw [C87_unwritable senv _ d m hd hb x]
        constructor
        · rintro ⟨h1, k, h2, h3⟩
          have : "VIEW_CHANGE" = k := (hinj k (by
            rcases h3 with ⟨rfl, _⟩ | ⟨rfl, _⟩
            · exact answers_types.2.1
            · exact answers_types.2.2.1)).1 h2
          exact ⟨h1, this ▸ h3⟩
        · rintro ⟨h1, h2⟩; exact ⟨h1, _, rfl, h2⟩
      cases ha : asDict m with
      | error x =>
        obtain ⟨rfl, h⟩ := (hu x).1 ha
        simp [h]
      | ok e =>
        have : ¬ Unwritable "VIEW_CHANGE" d := fun h => by
          have := (hu .attributeError).2 ⟨rfl, h⟩
          rw [ha] at this; cases this
        simp [this]
    · simp [hvc]

theorem answers_mem (typ : String) (ht : typ ∈ ["PREPREPARE", "PREPARE", "COMMIT", "VIEW_CHANGE", "NEW_VIEW"]) :
    Entry.ANSWERS.contains (ascii typ) = true := by
  simp only [List.mem_cons, List.not_mem_nil, or_false] at ht
  rcases ht with rfl | rfl | rfl | rfl | rfl <;> simp [Entry.ANSWERS]

theorem routed_types : Entry.ROUTES.contains (ascii "MESSAGE_RESPONSE") = true ∧ Entry.ROUTES.contains (ascii "VIEW_CHANGE") = true ∧
    Entry.ROUTES.contains (ascii "NEW_VIEW") = true ∧ ascii "VIEW_CHANGE" ≠ ascii "MESSAGE_RESPONSE" ∧
    ascii "NEW_VIEW" ≠ ascii "MESSAGE_RESPONSE" := by decide +kernel

/-- **C87, answers.** The answer of any peer, to a question that was never asked: if it reaches a
replica, an unpackable PREPREPARE or a VIEW_CHANGE that cannot be written out stops the node. When
what follows once the answer is taken raises nothing (`later`), nothing else does. -/
theorem C87_answer_stops (cfg : Entry.Cfg) (senv : Schema.Env) (F : Facts) (P : Place) (s : Entry.St) (typ : String)
    (b p d : Items) (frm : Bytes) (r : List (NodeMsg × Bytes)) (hs : s.stopped = false)
    (hq : s.nodeIn = (⟨ascii "MESSAGE_RESPONSE", b⟩, frm) :: r) (hw : WF (.dict d))
    (ht : typ ∈ ["PREPREPARE", "PREPARE", "COMMIT", "VIEW_CHANGE", "NEW_VIEW"])
    (h1 : Field b (ascii "msg_type") (.str (ascii typ))) (h2 : Field b (ascii "params") (.dict p))
    (h3 : Field b (ascii "msg") (.dict d))
    (hr : NoField p (ascii "instId") ∨ Field p (ascii "instId") .none ∨
      ∃ v, Field p (ascii "instId") v ∧ ∃ i ∈ F.insts, Entry.eqInt F v i = true) :
    (FatalAnswer senv typ d → (Entry.step cfg s (.route (Entry.replicaRaises senv F P))).stopped = true) ∧
    ((∀ m, P.later m = false) → ((Entry.step cfg s (.route (Entry.replicaRaises senv F P))).stopped = true ↔
      FatalAnswer senv typ d)) := by
  have e : (Entry.step cfg s (.route (Entry.replicaRaises senv F P))).stopped =
      Entry.extractRaises senv P (ascii typ) (.dict d) := by
    have e1 : Entry.replicaRaises senv F P ⟨ascii "MESSAGE_RESPONSE", b⟩ =
        Entry.extractRaises senv P (ascii typ) (.dict d) := by
      unfold Entry.replicaRaises
      rw [if_pos (beq_self_eq_true _)]
      unfold Entry.answerRaises
      simp only
      rw [Schema.get_field h1, Schema.get_field h2, Schema.get_field h3]
      simp only
      rw [answers_mem typ ht, (reaches_iff F p).2 hr]
      rfl
    unfold Entry.step
    simp only [hs]
    unfold Entry.routeOne
    rw [hq]
    simp only [hs, routed_types.1, e1]
    rfl
  rw [e, extract_iff hw ht]
  refine ⟨fun h => .inl h, fun h => ⟨?_, fun h => .inl h⟩⟩
  rintro (h' | ⟨_, m, _, h'⟩)
  · exact h'
  · rw [h m] at h'; cases h'

/-- **C87, answers that are dropped.** An answer whose instance the node does not have, or that is
no object, does not stop it. -/
theorem C87_answer_dropped (cfg : Entry.Cfg) (senv : Schema.Env) (F : Facts) (P : Place) (s : Entry.St)
    (b p : Items) (v : Val) (frm : Bytes) (r : List (NodeMsg × Bytes)) (hs : s.stopped = false)
    (hq : s.nodeIn = (⟨ascii "MESSAGE_RESPONSE", b⟩, frm) :: r)
    (h2 : Field b (ascii "params") (.dict p)) (h3 : Field b (ascii "msg") v)
    (h : (∀ d, v ≠ .dict d) ∨ ∃ w, Field p (ascii "instId") w ∧ w ≠ .none ∧ ∀ i ∈ F.insts, Entry.eqInt F w i = false) :
    (Entry.step cfg s (.route (Entry.replicaRaises senv F P))).stopped = false := by
  have e1 : Entry.replicaRaises senv F P ⟨ascii "MESSAGE_RESPONSE", b⟩ = false := by
    unfold Entry.replicaRaises
    rw [if_pos (beq_self_eq_true _)]
    unfold Entry.answerRaises
    simp only
    rw [Schema.get_field h2, Schema.get_field h3]
    split
    · rename_i hp
      cases hp
      rcases h with h | ⟨w, hw, h1, h2⟩
      · have : ∀ typ, Entry.extractRaises senv P typ v = false := by
          intro typ
          unfold Entry.extractRaises
          cases v <;> first | rfl | exact absurd rfl (h _)
        simp [this]
      · have : Entry.reaches F (Entry.get p (ascii "instId")) = false := by
          rw [Schema.get_field hw]
          unfold Entry.reaches
          simpa [h1] using h2
        simp [this]
    · rfl
  unfold Entry.step
  simp only [hs]
  unfold Entry.routeOne
  rw [hq]
  simp only [hs, routed_types.1, e1]
  rfl

/-- **C87, votes.** A VIEW_CHANGE or NEW_VIEW of any peer, for the view that the node is changing to:
it stops the node if it cannot be written out, and only then, as far as this model goes. -/
theorem C87_vote_stops (cfg : Entry.Cfg) (senv : Schema.Env) (F : Facts) (P : Place) (s : Entry.St) (k : String) (n : Val)
    (b : Items) (frm : Bytes) (r : List (NodeMsg × Bytes)) (hs : s.stopped = false)
    (hk : k = "VIEW_CHANGE" ∨ k = "NEW_VIEW")
    (hq : s.nodeIn = (⟨ascii k, b⟩, frm) :: r) (hw : WF (.dict b)) (hd : Declared senv k b)
    (hn : Field b (ascii "viewNo") n) (hv : Entry.eqInt F n P.viewNo = true)
    (hp : P.participating = true) (hwt : P.waiting = true) :
    (Unwritable k b → (Entry.step cfg s (.route (Entry.replicaRaises senv F P))).stopped = true) ∧
    ((∀ m, P.later m = false) → ((Entry.step cfg s (.route (Entry.replicaRaises senv F P))).stopped = true ↔
      Unwritable k b)) := by
  have hty : k ∈ Schema.types := by
    rcases hk with rfl | rfl
    · exact answers_types.2.1
    · exact answers_types.2.2.1
  obtain ⟨m, hm⟩ := (C87_accepted senv (ascii k) b hw).2 ⟨k, rfl, hd⟩
  obtain ⟨t, ht, hname⟩ : ∃ t, (k, t) ∈ messages senv ∧ ∃ x ∈ t, ascii "viewNo" = ascii x.name := by
    rcases hk with rfl | rfl
    · exact ⟨_, Schema.vc_mem senv, _, List.mem_cons_self, rfl⟩
    · exact ⟨_, Schema.nv_mem senv, _, List.mem_cons_self, rfl⟩
  have hnm : Entry.get m.fields (ascii "viewNo") = n :=
    Schema.get_field (((C87_contents senv k t ht b m hw hm).2.2 _ _).2 ⟨hname, hn⟩)
  have hlt : Entry.ltInt n P.viewNo = false := by
    unfold Entry.eqInt at hv
    unfold Entry.ltInt
    cases n <;> simp_all
  have htk : Entry.taken F P m = true := by
    unfold Entry.taken
    rw [hnm, hlt, hv, hp, hwt]
    rfl
  have hu : ∀ x, asDict m = .error x ↔ x = .attributeError ∧ Unwritable k b := by
    intro x
    rw [C87_unwritable senv _ b m hw hm x]
    constructor
    · rintro ⟨h1, k', h2, h3⟩
      have hty' : k' ∈ Schema.types := by
        rcases h3 with ⟨rfl, _⟩ | ⟨rfl, _⟩
        · exact answers_types.2.1
        · exact answers_types.2.2.1
      have : k = k' := by
        have := Schema.ascii_beq hty hty'
        rw [h2] at this
        simpa using this.symm
      exact ⟨h1, this ▸ h3⟩
    · rintro ⟨h1, h2⟩; exact ⟨h1, _, rfl, h2⟩
  have hop : (ascii k == ascii "MESSAGE_RESPONSE") = false ∧ (ascii k == ascii "VIEW_CHANGE" || ascii k == ascii "NEW_VIEW") = true ∧
      Entry.ROUTES.contains (ascii k) = true := by
    rcases hk with rfl | rfl
    · refine ⟨beq_eq_false_iff_ne.2 routed_types.2.2.2.1, by simp, routed_types.2.1⟩
    · refine ⟨beq_eq_false_iff_ne.2 routed_types.2.2.2.2, by simp, routed_types.2.2.1⟩
  have e : (Entry.step cfg s (.route (Entry.replicaRaises senv F P))).stopped =
      (match asDict m with | .error _ => true | .ok _ => P.later m) := by
    have e1 : Entry.replicaRaises senv F P ⟨ascii k, b⟩ = (match asDict m with | .error _ => true | .ok _ => P.later m) := by
      unfold Entry.replicaRaises
      rw [if_neg (by rw [hop.1]; simp), if_pos hop.2.1]
      simp only
      rw [hm]
      simp only
      unfold Entry.voteRaises
      rw [htk]
      rfl
    unfold Entry.step
    simp only [hs]
    unfold Entry.routeOne
    rw [hq]
    simp only [hs, hop.2.2, e1]
    rfl
  rw [e]
  cases ha : asDict m with
  | error x =>
    obtain ⟨_, h⟩ := (hu x).1 ha
    simp [h]
  | ok e =>
    have : ¬ Unwritable k b := fun h => by
      have := (hu .attributeError).2 ⟨rfl, h⟩
      rw [ha] at this; cases this
    simp only [this, false_implies, true_and, iff_false]
    intro h
    simp [h m]

/-! ### What goes wrong -/

namespace SchemaX

def env : Schema.Env := ⟨fun _ => none, fun _ => false, []⟩

/-- An atom, or a list of atoms. -/
def plain : Val → Bool
  | .list l => l.all (fun v => match v with | .list _ => false | .dict _ => false | _ => true)
  | .dict _ => false
  | _ => true

theorem wf_plain {v : Val} (h : plain v = true) : WF v := by
  cases v with
  | list l =>
    refine .list _ fun v hv => ?_
    have := List.all_eq_true.1 h v hv
    cases v <;> first | (cases this; done) | (constructor; done)
  | dict d => cases h
  | _ => constructor

theorem wf_flat {d : Items} (h1 : (d.map Prod.fst).Nodup) (h2 : d.all (fun e => plain e.2) = true) : WF (.dict d) :=
  .dict _ h1 fun e he => wf_plain (List.all_eq_true.1 h2 e he)

/-- A PREPARE, with its fields in another order and one more. -/
def prepare : Items := [(ascii "viewNo", .int 1), (ascii "instId", .bool false), (ascii "more", .str (ascii "x")),
  (ascii "ppSeqNo", .int 2), (ascii "ppTime", .int 1600000000), (ascii "digest", .str (ascii "d")),
  (ascii "stateRootHash", .none), (ascii "txnRootHash", .none)]

/-- A PREPREPARE with the empty list for a multi-signature. -/
def bad : Items := [(ascii "instId", .int 0), (ascii "viewNo", .int 1), (ascii "ppSeqNo", .int 2),
  (ascii "ppTime", .int 1600000000), (ascii "reqIdr", .list [.str (ascii "r")]), (ascii "discarded", .str (ascii "1")),
  (ascii "digest", .str (ascii "d")), (ascii "ledgerId", .int 1), (ascii "stateRootHash", .none),
  (ascii "txnRootHash", .none), (ascii "sub_seq_no", .int 0), (ascii "final", .bool true),
  (ascii "blsMultiSig", .list [])]

def checkpoint : Items := [(ascii "instId", .int 0), (ascii "viewNo", .int 1), (ascii "seqNoStart", .int 0),
  (ascii "seqNoEnd", .int 100), (ascii "digest", .none)]

/-- A VIEW_CHANGE with these checkpoints. -/
def vote (l : List Val) : Items := [(ascii "viewNo", .int 3), (ascii "stableCheckpoint", .int 0), (ascii "prepared", .list []),
  (ascii "preprepared", .list []), (ascii "checkpoints", .list l)]

/-- A NEW_VIEW whose checkpoint is `null`. -/
def newView : Items := [(ascii "viewNo", .int 3), (ascii "viewChanges", .list []), (ascii "checkpoint", .none),
  (ascii "batches", .list [])]

def errs (r : Except Exc Msg) : Option Exc := match r with | .error x => some x | .ok _ => none
def out (r : Except Exc Msg) : Option (Except Exc Items) := match r with | .error _ => none | .ok m => some (asDict m)

theorem errs_some {r : Except Exc Msg} {x : Exc} (h : errs r = some x) : r = .error x := by
  cases r <;> simp_all [errs]

theorem out_some {r : Except Exc Msg} {x : Except Exc Items} (h : out r = some x) : ∃ m, r = .ok m ∧ asDict m = x := by
  cases r <;> simp_all [out]

theorem wf_vote (l : List Val) (h : ∀ v ∈ l, WF v) : WF (.dict (vote l)) := by
  refine .dict _ (by show (List.map Prod.fst (vote [])).Nodup; decide +kernel) ?_
  simp only [vote, List.forall_mem_cons]
  exact ⟨.int _, .int _, .list _ nofun, .list _ nofun, .list _ h, nofun⟩

/-- A PREPARE is accepted without the unknown field, its fields in order; a negative number is not. -/
example : (match build env (ascii "PREPARE") prepare with | .ok m => m.fields.map Prod.fst | .error _ => []) =
    [ascii "instId", ascii "viewNo", ascii "ppSeqNo", ascii "ppTime", ascii "digest", ascii "stateRootHash",
      ascii "txnRootHash"] ∧
    errs (build env (ascii "PREPARE") ((ascii "viewNo", .int (-1)) :: prepare.tail)) = some .typeError ∧
    errs (build env (ascii "PREPARE") prepare.tail) = some .typeError := by decide +kernel

/-- The hypotheses of `C87_contents` and `C87_sent_on_same` are met. -/
example : ∃ m e, build env (ascii "PREPARE") prepare = .ok m ∧ asDict m = .ok e ∧ build env (ascii "PREPARE") e = .ok m ∧
    ¬ ∃ v, Field m.fields (ascii "more") v := by
  have hw : WF (.dict prepare) := wf_flat (by decide +kernel) (by decide +kernel)
  have h0 : (out (build env (ascii "PREPARE") prepare)).isSome = true := by decide +kernel
  obtain ⟨m, hm, _⟩ := out_some (Option.eq_some_of_isSome h0)
  obtain ⟨e, h1, h2⟩ := C87_sent_on_same env _ prepare m hw hm (by decide +kernel) (by decide +kernel)
  obtain ⟨k, hk, _, ⟨t, ht, _⟩, _⟩ := (C87_accepted env _ prepare hw).1 ⟨m, hm⟩
  refine ⟨m, e, hm, h1, h2, ?_⟩
  rintro ⟨v, hv⟩
  have h3 : m.fields.map Prod.fst = [ascii "instId", ascii "viewNo", ascii "ppSeqNo", ascii "ppTime", ascii "digest",
      ascii "stateRootHash", ascii "txnRootHash"] := by
    have : (match build env (ascii "PREPARE") prepare with | .ok m => m.fields.map Prod.fst | .error _ => []) =
      [ascii "instId", ascii "viewNo", ascii "ppSeqNo", ascii "ppTime", ascii "digest", ascii "stateRootHash",
        ascii "txnRootHash"] := by decide +kernel
    rw [hm] at this
    exact this
  have := List.mem_map_of_mem (f := Prod.fst) (Schema.field_mem hv)
  rw [h3] at this
  exact absurd (show ascii "more" ∈ _ from this) (by decide +kernel)

end SchemaX

open SchemaX in
/-- **C87, refused otherwise.** A PREPREPARE with an empty list for a multi-signature is refused with
a `ValueError`. -/
theorem C87_refused_otherwise : ∃ env d, WF (.dict d) ∧ build env (ascii "PREPREPARE") d = .error .valueError :=
  ⟨env, bad, wf_flat (by decide +kernel) (by decide +kernel), errs_some (by decide +kernel)⟩

open SchemaX in
/-- **C87, not to be sent on.** A VIEW_CHANGE with the checkpoints `[5]` and a NEW_VIEW with the
checkpoint `null` are accepted, and cannot be written out. -/
theorem C87_not_sent_on : ∃ env d d', WF (.dict d) ∧ WF (.dict d') ∧
    (∃ m, build env (ascii "VIEW_CHANGE") d = .ok m ∧ asDict m = .error .attributeError) ∧
    ∃ m, build env (ascii "NEW_VIEW") d' = .ok m ∧ asDict m = .error .attributeError :=
  ⟨env, vote [.int 5], newView, wf_vote _ (by simp only [List.forall_mem_cons]; exact ⟨.int _, nofun⟩),
    wf_flat (by decide +kernel) (by decide +kernel), out_some (by decide +kernel), out_some (by decide +kernel)⟩

open SchemaX in
/-- **C87, dropped silently.** What is no object among the checkpoints of a VIEW_CHANGE is dropped if
there is an object among them: two different VIEW_CHANGEs are then written out as the same. -/
theorem C87_dropped : ∃ env d d' e, WF (.dict d) ∧ WF (.dict d') ∧
    (∃ l, Field d (ascii "checkpoints") (.list l) ∧ l.length = 2) ∧
    (∃ l, Field d' (ascii "checkpoints") (.list l) ∧ l.length = 1) ∧
    (∃ m, build env (ascii "VIEW_CHANGE") d = .ok m ∧ asDict m = .ok e) ∧
    ∃ m, build env (ascii "VIEW_CHANGE") d' = .ok m ∧ asDict m = .ok e := by
  have hc : WF (.dict checkpoint) := wf_flat (by decide +kernel) (by decide +kernel)
  have hw : ∀ l, Field (vote l) (ascii "checkpoints") (.list l) := by
    intro l
    refine ⟨(vote []).take 4, [], rfl, ?_⟩
    decide +kernel
  have h0 : (match out (build env (ascii "VIEW_CHANGE") (vote [.dict checkpoint])) with
    | some (.ok _) => true | _ => false) = true := by decide +kernel
  have h1 : out (build env (ascii "VIEW_CHANGE") (vote [.int 5, .dict checkpoint])) =
    out (build env (ascii "VIEW_CHANGE") (vote [.dict checkpoint])) := by decide +kernel
  cases h2 : out (build env (ascii "VIEW_CHANGE") (vote [.dict checkpoint])) with
  | none => rw [h2] at h0; cases h0
  | some x =>
    rw [h2] at h0 h1
    cases x with
    | error x => cases h0
    | ok e =>
      refine ⟨env, vote [.int 5, .dict checkpoint], vote [.dict checkpoint], e, wf_vote _ ?_, wf_vote _ ?_,
        ⟨_, hw _, rfl⟩, ⟨_, hw _, rfl⟩, out_some h1, out_some h2⟩
      · simp only [List.forall_mem_cons]; exact ⟨.int _, hc, nofun⟩
      · simp only [List.forall_mem_cons]; exact ⟨hc, nofun⟩

namespace SchemaX

def F : Facts := ⟨[], [0, 1], fun _ _ => false⟩
def P : Place := ⟨3, true, true, fun _ => false⟩

def cfg : Entry.Cfg where
  loads := fun _ => none
  utf8 := fun _ => true
  maxLen := 100
  fits := fun op d => (errs (build env op d)).isNone
  request := fun _ => none
  needsSig := fun _ => true
  verify := fun _ => none
  propagated := fun _ => true
  depth := 3

/-- The hypothesis of `C87_inboxes`. -/
example (op : Bytes) (d : Items) : cfg.fits op d = true ↔ ∃ m, build env op d = .ok m := by
  show (errs (build env op d)).isNone = true ↔ _
  cases build env op d <;> simp [errs]

def answer (typ : String) (p d : Items) : Items := [(ascii "msg_type", .str (ascii typ)), (ascii "params", .dict p), (ascii "msg", .dict d)]

def one (op : String) (b : Items) : Entry.St := { nodeIn := [(⟨ascii op, b⟩, ascii "P")] }

theorem answer_fields (typ : String) (p d : Items) : Field (answer typ p d) (ascii "msg_type") (.str (ascii typ)) ∧
    Field (answer typ p d) (ascii "params") (.dict p) ∧ Field (answer typ p d) (ascii "msg") (.dict d) := by
  have h : ascii "msg_type" ≠ ascii "params" ∧ ascii "msg_type" ≠ ascii "msg" ∧ ascii "params" ≠ ascii "msg" := by
    decide +kernel
  refine ⟨⟨[], _, rfl, nofun⟩, ⟨[_], _, rfl, ?_⟩, ⟨[_, _], [], rfl, ?_⟩⟩
  · simpa using h.1
  · simpa using h.2

/-- An answer that nobody asked for stops the node: the hypotheses of `C87_answer_stops` are met. -/
example : (Entry.step cfg (one "MESSAGE_RESPONSE" (answer "PREPREPARE" [] bad)) (.route (Entry.replicaRaises env F P))).stopped = true := by
  obtain ⟨h1, h2, h3⟩ := answer_fields "PREPREPARE" [] bad
  have hw : WF (.dict bad) := wf_flat (by decide +kernel) (by decide +kernel)
  refine (C87_answer_stops cfg env F P (one "MESSAGE_RESPONSE" (answer "PREPREPARE" [] bad)) "PREPREPARE" _ [] bad (ascii "P") []
    rfl rfl hw (by simp) h1 h2 h3 (.inl nofun)).1 (.inl ⟨rfl, ?_⟩)
  exact ((C87_value_error env (ascii "PREPREPARE") bad hw .valueError (by simp)).1 (errs_some (by decide +kernel))).2.2

/-- The handler, on several answers. -/
example : Entry.replicaRaises env F P ⟨ascii "MESSAGE_RESPONSE", answer "VIEW_CHANGE" [(ascii "instId", .int 1)] (vote [.int 5])⟩ = true ∧
    Entry.replicaRaises env F P ⟨ascii "MESSAGE_RESPONSE", answer "VIEW_CHANGE" [(ascii "instId", .int 2)] (vote [.int 5])⟩ = false ∧
    Entry.replicaRaises env F P ⟨ascii "MESSAGE_RESPONSE", answer "VIEW_CHANGE" [] (vote [.dict checkpoint])⟩ = false ∧
    Entry.replicaRaises env F P ⟨ascii "MESSAGE_RESPONSE", answer "NEW_VIEW" [] newView⟩ = false ∧
    Entry.replicaRaises env F P ⟨ascii "MESSAGE_RESPONSE", answer "PREPARE" [] bad⟩ = false := by decide +kernel

/-- Votes: one that cannot be written out stops a node that is changing to the view, not another. -/
example : Entry.replicaRaises env F P ⟨ascii "VIEW_CHANGE", vote [.int 5]⟩ = true ∧
    Entry.replicaRaises env F P ⟨ascii "NEW_VIEW", newView⟩ = true ∧
    Entry.replicaRaises env F { P with waiting := false } ⟨ascii "NEW_VIEW", newView⟩ = false ∧
    Entry.replicaRaises env F { P with viewNo := 2 } ⟨ascii "NEW_VIEW", newView⟩ = false ∧
    Entry.replicaRaises env F P ⟨ascii "VIEW_CHANGE", vote [.int 5, .dict checkpoint]⟩ = false := by decide +kernel

/-- The hypotheses of `C87_vote_stops` are met. -/
example : (Entry.step cfg (one "NEW_VIEW" newView) (.route (Entry.replicaRaises env F P))).stopped = true := by
  have hw : WF (.dict newView) := wf_flat (by decide +kernel) (by decide +kernel)
  have h0 : (out (build env (ascii "NEW_VIEW") newView)).isSome = true := by decide +kernel
  obtain ⟨m, hm, _⟩ := out_some (Option.eq_some_of_isSome h0)
  obtain ⟨k, hk, hd⟩ := (C87_accepted env _ newView hw).1 ⟨m, hm⟩
  obtain ⟨_, ⟨t, ht, _⟩, _⟩ := id hd
  have : "NEW_VIEW" = k := by
    have h := Schema.ascii_beq answers_types.2.2.1 (Schema.name_ok ht).2
    rw [hk] at h
    simpa using h.symm
  subst this
  refine (C87_vote_stops cfg env F P (one "NEW_VIEW" newView) "NEW_VIEW" (.int 3) newView (ascii "P") [] rfl (.inr rfl) rfl hw hd
    ⟨[], _, rfl, nofun⟩ (by decide +kernel) rfl rfl).1 (.inr ⟨rfl, .none, ⟨newView.take 2, _, rfl, by decide +kernel⟩, nofun⟩)

end SchemaX

end Verif.Props
