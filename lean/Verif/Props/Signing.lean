import Verif.Proofs.Signing
/-!
# C42, C69: what a signature and a digest cover
-/
namespace Verif.Props
open Verif Verif.Spec Verif.Signing
open Verif.MsgPack (sortItems_spec)

theorem ser_top (fs : UInt64 → Bytes) (v : Val) : serializeMsgForSigning fs v [] = ser fs v := by
  have nof : ∀ d : List (Bytes × Val), d.filter (fun e => !([] : List Bytes).contains e.1) = d := by
    intro d; simp
  cases v with
  | dict d => show ser fs (.dict (d.filter _)) = _; rw [nof]
  | _ => rfl

/-- C42, for values of the same shape: the same types, list lengths and dict keys
everywhere, no floats, and no `,` `:` `|` in any text. Changing any part of such a
value changes the bytes that are signed.

Missing: values of different shape, and texts with delimiters. There the claim is
false, see `signing_bytes_ambiguous`. -/
theorem signing_same_shape_partial (floatStr : UInt64 → Bytes) (a b : Val) (wa : WF a) (wb : WF b) (pa : Plain a)
    (pb : Plain b) (h : SameShape a b) (x : Bytes) (ha : serializeMsgForSigning floatStr a [] = some x)
    (hb : serializeMsgForSigning floatStr b [] = some x) : Same a b := by
  rw [ser_top] at ha hb
  exact (same_shape h wa wb pa pb x x ha hb).2 rfl

private def t (s : String) : Bytes := ascii s

/-- Two values of the same shape that differ in one nested number. -/
example : let a : Val := .dict [(t "data", .list [.int 1, .dict [(t "b", .none), (t "a", .str (t "x"))]])]
    let b : Val := .dict [(t "data", .list [.int 2, .dict [(t "a", .str (t "x")), (t "b", .none)]])]
    ∀ fs, ser fs a = some (t "data:1,a:x|b:") ∧ ser fs b = some (t "data:2,a:x|b:") := by
  intro a b fs
  exact ⟨rfl, rfl⟩

/-- Values that meet the hypotheses. -/
example (n : Int) : let a := Val.dict [(t "data", .list [.int n, .str (t "x")])]
    WF a ∧ Plain a ∧ ∀ m, SameShape a (.dict [(t "data", .list [.int m, .str (t "yz")])]) := by
  refine ⟨.dict _ (by simp) ?_, .dict _ (fun e he => ?_) ?_, fun m => .dict _ _ (fun _ => Iff.rfl) ?_⟩
  · intro e he
    simp only [List.mem_singleton] at he; subst he
    refine .list _ (fun v hv => ?_)
    simp only [List.mem_cons, List.not_mem_nil, or_false] at hv
    rcases hv with rfl | rfl
    · exact .int n
    · exact .str _
  · simp only [List.mem_singleton] at he; subst he
    show PlainText (t "data")
    unfold PlainText; decide +kernel
  · intro e he
    simp only [List.mem_singleton] at he; subst he
    refine .list _ (fun v hv => ?_)
    simp only [List.mem_cons, List.not_mem_nil, or_false] at hv
    rcases hv with rfl | rfl
    · exact .int n
    · exact .str _ (show PlainText (t "x") by unfold PlainText; decide +kernel)
  · intro k v w hv hw
    simp only [List.mem_singleton, Prod.mk.injEq] at hv hw
    rw [hv.2, hw.2]
    refine .list _ _ rfl (fun i v w h1 h2 => ?_)
    match i with
    | 0 => cases h1; cases h2; exact .int n m
    | 1 => cases h1; cases h2; exact .str _ _
    | i + 2 => cases h1

/-- The whole claim C42 is false. Different requests have the same digest: a
delimiter in a text, a nested dict against a flat one, a number against a text. -/
theorem signing_bytes_ambiguous (H : Bytes → Bytes) (floatStr : UInt64 → Bytes) :
    (∃ a b : Request, a.operation = .dict [(t "alias", .str (t "x|dest:D")), (t "type", .str (t "1"))] ∧
      b.operation = .dict [(t "alias", .str (t "x")), (t "dest", .str (t "D")), (t "type", .str (t "1"))] ∧
      a.identifier = b.identifier ∧ a.reqId = b.reqId ∧
      a.digest H floatStr = b.digest H floatStr ∧ (a.digest H floatStr).isSome = true) ∧
    (∃ a b : Request, a.operation = .dict [(t "data", .dict [(t "alias", .str (t "x")), (t "dest", .str (t "D"))])] ∧
      b.operation = .dict [(t "data", .dict [(t "alias", .str (t "x"))]), (t "dest", .str (t "D"))] ∧
      a.identifier = b.identifier ∧ a.reqId = b.reqId ∧
      a.digest H floatStr = b.digest H floatStr ∧ (a.digest H floatStr).isSome = true) ∧
    (∃ a b : Request, a.operation = .dict [(t "data", .int 1)] ∧ b.operation = .dict [(t "data", .str (t "1"))] ∧
      a.identifier = b.identifier ∧ a.reqId = b.reqId ∧
      a.digest H floatStr = b.digest H floatStr ∧ (a.digest H floatStr).isSome = true) := by
  refine ⟨⟨{ identifier := some (t "I"), reqId := 1, operation := _ }, { identifier := some (t "I"), reqId := 1, operation := _ },
      rfl, rfl, rfl, rfl, ?_, ?_⟩,
    ⟨{ identifier := some (t "I"), reqId := 1, operation := _ }, { identifier := some (t "I"), reqId := 1, operation := _ },
      rfl, rfl, rfl, rfl, ?_, ?_⟩,
    ⟨{ identifier := some (t "I"), reqId := 1, operation := _ }, { identifier := some (t "I"), reqId := 1, operation := _ },
      rfl, rfl, rfl, rfl, ?_, ?_⟩⟩ <;> first | rfl | (unfold Request.digest; congr 1)

/-! ## Requests with a flat operation -/

/-- A request whose operation is a dict of texts. -/
structure Flat where
  identifier : Bytes
  reqId : Int
  operation : List (Bytes × Bytes)
  protocolVersion : Int
  signature : Option Bytes
  /-- mechanism, digest, time -/
  taa : Option (Bytes × Bytes × Int)
  endorser : Option Bytes

/-- As a request. -/
def Flat.toRequest (r : Flat) : Request where
  identifier := some r.identifier
  reqId := r.reqId
  operation := .dict (r.operation.map (fun e => (e.1, .str e.2)))
  protocolVersion := some r.protocolVersion
  signature := r.signature
  taaAcceptance := r.taa.map (fun x => .dict [(ascii "mechanism", .str x.1), (ascii "taaDigest", .str x.2.1), (ascii "time", .int x.2.2)])
  endorser := r.endorser

/-- The texts of the request hold none of `,` `:` `|`; the author is given and the
fields of the operation are different. -/
structure Flat.Plain (r : Flat) : Prop where
  idr : PlainText r.identifier
  idr0 : r.identifier ≠ []
  op : ∀ e ∈ r.operation, PlainText e.1 ∧ PlainText e.2
  keys : (r.operation.map Prod.fst).Nodup
  sig : ∀ s, r.signature = some s → PlainText s
  taa : ∀ m d n, r.taa = some (m, d, n) → PlainText m ∧ PlainText d
  endorser : ∀ s, r.endorser = some s → PlainText s

/-- The segments of an operation. -/
def opSegs : List (Bytes × Bytes) → List (List Bytes)
  | [] => [[ascii "operation", []]]
  | (k, v) :: r => [ascii "operation", k, v] :: r.map (fun e => [e.1, e.2])

/-- Segments before the operation. -/
def headSegs (r : Flat) : List (List Bytes) :=
  (match r.endorser with | some e => [[ascii "endorser", e]] | none => []) ++ [[ascii "identifier", r.identifier]]

/-- Segments after the operation. -/
def tailSegs (sig : Option Bytes) (r : Flat) : List (List Bytes) :=
  [[ascii "protocolVersion", intText r.protocolVersion], [ascii "reqId", intText r.reqId]] ++
    (match sig with | some s => [[ascii "signature", s]] | none => []) ++
    (match r.taa with
      | some (m, d, n) => [[ascii "taaAcceptance", ascii "mechanism", m], [ascii "taaDigest", d], [ascii "time", intText n]]
      | none => [])

/-- All segments. -/
def segs (sig : Option Bytes) (r : Flat) : List (List Bytes) :=
  headSegs r ++ opSegs (sortItems r.operation) ++ tailSegs sig r

theorem serItems_texts (fs : UInt64 → Bytes) (l : List (Bytes × Bytes)) :
    serItems fs (l.map (fun e => (e.1, Val.str e.2))) = some l := by
  induction l with
  | nil => rfl
  | cons e r ih => simp [serItems, ser, ih]

theorem text_op (l : List (Bytes × Bytes)) :
    text (opSegs l) = ascii "operation" ++ colon :: join bar (l.map item) := by
  cases l with
  | nil => simp [opSegs, text, join]
  | cons e r =>
    obtain ⟨k, v⟩ := e
    have : r.map (join colon ∘ fun e => [e.1, e.2]) = r.map item := by
      apply List.map_congr_left; intro x _; simp [join, item]
    simp only [opSegs, text, List.map_cons, List.map_map, this, join]
    cases r with
    | nil => simp [join, item]
    | cons y s => simp [join, item]

theorem text_three (a b c : List (List Bytes)) (ha : a ≠ []) (hb : b ≠ []) (hc : c ≠ []) :
    text (a ++ b ++ c) = text a ++ bar :: (text b ++ bar :: text c) := by
  unfold text
  rw [List.map_append, join_append _ _ (by simp [ha]) (by simp [hc]), List.map_append,
    join_append _ _ (by simp [ha]) (by simp [hb])]
  simp

/-- The serialized agreement acceptance. -/
def taaText (x : Bytes × Bytes × Int) : Bytes :=
  join bar [item (ascii "mechanism", x.1), item (ascii "taaDigest", x.2.1), item (ascii "time", intText x.2.2)]

/-- An optional field. -/
def fieldB (name : String) : Option Bytes → List (Bytes × Bytes)
  | some v => [(ascii name, v)]
  | none => []

theorem sort_fields (i r o p : Bytes) (tx en sg : Option Bytes) :
    sortItems ([(ascii "identifier", i), (ascii "reqId", r), (ascii "operation", o)] ++ fieldB "protocolVersion" (some p) ++
      fieldB "taaAcceptance" tx ++ fieldB "endorser" en ++ fieldB "signature" sg) =
    fieldB "endorser" en ++ [(ascii "identifier", i), (ascii "operation", o), (ascii "protocolVersion", p), (ascii "reqId", r)] ++
      fieldB "signature" sg ++ fieldB "taaAcceptance" tx := by
  cases tx <;> cases en <;> cases sg <;> rfl

theorem ser_taa (fs : UInt64 → Bytes) (x : Bytes × Bytes × Int) :
    ser fs (.dict [(ascii "mechanism", .str x.1), (ascii "taaDigest", .str x.2.1), (ascii "time", .int x.2.2)]) =
      some (taaText x) := by
  simp only [ser, serItems]; rfl

theorem flat_bytes (fs : UInt64 → Bytes) (i : Bytes) (rid pv : Int) (o : Val) (j : Bytes) (ho : ser fs o = some j)
    (tx : Option (Bytes × Bytes × Int)) (en sg : Option Bytes) :
    ser fs (.dict ([(ascii "identifier", .str i), (ascii "reqId", .int rid), (ascii "operation", o)] ++
      field "protocolVersion" (some (.int pv)) ++
      field "taaAcceptance" (tx.map (fun x => .dict [(ascii "mechanism", .str x.1), (ascii "taaDigest", .str x.2.1), (ascii "time", .int x.2.2)])) ++
      field "endorser" (en.map .str) ++ field "signature" (sg.map .str))) =
    some (join bar ((fieldB "endorser" en ++ [(ascii "identifier", i), (ascii "operation", j),
      (ascii "protocolVersion", intText pv), (ascii "reqId", intText rid)] ++ fieldB "signature" sg ++
      fieldB "taaAcceptance" (tx.map taaText)).map item)) := by
  rw [ser, ← sort_fields]
  cases tx <;> cases en <;> cases sg <;>
    simp only [Option.map_some, Option.map_none, field, List.append_nil, List.cons_append, List.nil_append, serItems, ho, ser_taa] <;>
    simp only [ser] <;> rfl

theorem flat_text (i j : Bytes) (rid pv : Int) (op : List (Bytes × Bytes)) (hj : join bar ((sortItems op).map item) = j)
    (tx : Option (Bytes × Bytes × Int)) (en sg sg' : Option Bytes) :
    join bar ((fieldB "endorser" en ++ [(ascii "identifier", i), (ascii "operation", j),
      (ascii "protocolVersion", intText pv), (ascii "reqId", intText rid)] ++ fieldB "signature" sg ++
      fieldB "taaAcceptance" (tx.map taaText)).map item) = text (segs sg ⟨i, rid, op, pv, sg', tx, en⟩) := by
  unfold segs
  rw [text_three _ _ _ (by simp [headSegs]) (by cases h : sortItems op <;> simp [opSegs]) (by simp [tailSegs]), text_op]
  rw [hj]
  cases tx <;> cases en <;> cases sg <;>
    simp [headSegs, tailSegs, text, join, item, fieldB, taaText]

theorem digestBytes_flat (fs : UInt64 → Bytes) (r : Flat) (h : r.identifier ≠ []) :
    r.toRequest.digestBytes fs = some (text (segs r.signature r)) ∧
    r.toRequest.payloadBytes fs = some (text (segs none r)) := by
  obtain ⟨idr, rid, op, pv, sig, taa, en⟩ := r
  have hid : ∀ q : Request, q.identifier = some idr → q.idr = some idr := by
    intro q hq
    unfold Request.idr
    rw [hq]
    cases idr with
    | nil => exact absurd rfl h
    | cons c s => rfl
  have hop : ser fs (.dict (op.map (fun e => (e.1, Val.str e.2)))) = some (join bar ((sortItems op).map item)) := by
    rw [ser, serItems_texts]; rfl
  constructor
  · rw [← flat_text idr _ rid pv op rfl taa en sig sig, ← flat_bytes fs idr rid pv _ _ hop taa en sig]
    unfold Request.digestBytes
    rw [ser_top]
    unfold Request.signingState Request.signingPayloadState
    rw [hid _ rfl]
    simp [Flat.toRequest, optText, field]
  · rw [← flat_text idr _ rid pv op rfl taa en none sig, ← flat_bytes fs idr rid pv _ _ hop taa en none]
    unfold Request.payloadBytes
    rw [ser_top]
    unfold Request.signingPayloadState
    rw [hid _ rfl]
    simp [Flat.toRequest, optText, field]

theorem segs_plain (sig : Option Bytes) (r : Flat) (h : r.Plain) (hs : ∀ s, sig = some s → PlainText s) :
    ∀ s ∈ segs sig r, s ≠ [] ∧ ∀ t ∈ s, PlainText t := by
  have p1 : PlainText (ascii "operation") := by unfold PlainText; decide +kernel
  have p2 : PlainText (ascii "identifier") := by unfold PlainText; decide +kernel
  have p3 : PlainText (ascii "endorser") := by unfold PlainText; decide +kernel
  have p4 : PlainText (ascii "protocolVersion") := by unfold PlainText; decide +kernel
  have p5 : PlainText (ascii "reqId") := by unfold PlainText; decide +kernel
  have p6 : PlainText (ascii "signature") := by unfold PlainText; decide +kernel
  have p7 : PlainText (ascii "taaAcceptance") := by unfold PlainText; decide +kernel
  have p8 : PlainText (ascii "mechanism") := by unfold PlainText; decide +kernel
  have p9 : PlainText (ascii "taaDigest") := by unfold PlainText; decide +kernel
  have p10 : PlainText (ascii "time") := by unfold PlainText; decide +kernel
  have p0 : PlainText [] := by intro c hc; simp at hc
  have hop : ∀ e ∈ sortItems r.operation, PlainText e.1 ∧ PlainText e.2 :=
    fun e he => h.op e (((sortItems_spec _ h.keys).2 e).1 he)
  intro s hs'
  unfold segs at hs'
  simp only [List.mem_append] at hs'
  rcases hs' with (h1 | h1) | h1
  · unfold headSegs at h1
    rcases List.mem_append.1 h1 with h1 | h1
    · split at h1
      · next e he =>
        rw [List.mem_singleton] at h1; subst h1
        simp [p3, h.endorser e he]
      · simp at h1
    · rw [List.mem_singleton] at h1; subst h1
      simp [p2, h.idr]
  · generalize sortItems r.operation = l at *
    cases l with
    | nil => simp only [opSegs, List.mem_singleton] at h1; subst h1; simp [p1, p0]
    | cons e t =>
      obtain ⟨k, v⟩ := e
      simp only [opSegs, List.mem_cons] at h1
      rcases h1 with h1 | h1
      · subst h1
        have := hop (k, v) (by simp)
        simp [p1, this.1, this.2]
      · obtain ⟨x, hx, rfl⟩ := List.mem_map.1 h1
        have := hop x (by simp [hx])
        simp [this.1, this.2]
  · unfold tailSegs at h1
    simp only [List.mem_append, List.mem_cons, List.not_mem_nil, or_false] at h1
    rcases h1 with ((h1 | h1) | h1) | h1
    · subst h1; simp [p4, intText_plain]
    · subst h1; simp [p5, intText_plain]
    · split at h1
      · rw [List.mem_singleton] at h1; subst h1
        simp [p6, hs _ rfl]
      · simp at h1
    · split at h1
      · next m d n hx =>
        have := h.taa m d n hx
        simp only [List.mem_cons, List.not_mem_nil, or_false] at h1
        rcases h1 with h1 | h1 | h1 <;> subst h1
        · simp [p7, p8, this.1]
        · simp [p9, this.2]
        · simp [p10, intText_plain]
      · simp at h1

theorem opSegs_inj {a b : List (Bytes × Bytes)} (h : opSegs a = opSegs b) : a = b := by
  cases a with
  | nil => cases b with
    | nil => rfl
    | cons e r => obtain ⟨k, v⟩ := e; simp [opSegs] at h
  | cons e r =>
    obtain ⟨k, v⟩ := e
    cases b with
    | nil => simp [opSegs] at h
    | cons e' r' =>
      obtain ⟨k', v'⟩ := e'
      simp only [opSegs, List.cons.injEq, true_and, and_true] at h
      obtain ⟨⟨rfl, rfl⟩, h⟩ := h
      congr 1
      have hi : ∀ x y : Bytes × Bytes, [x.1, x.2] = [y.1, y.2] → x = y := by
        intro x y hxy
        simp only [List.cons.injEq, and_true] at hxy
        exact Prod.ext hxy.1 hxy.2
      exact List.map_inj_right hi |>.1 h

theorem segs_inj (s s' : Option Bytes) (r r' : Flat) (h : segs s r = segs s' r') :
    r.identifier = r'.identifier ∧ r.reqId = r'.reqId ∧ sortItems r.operation = sortItems r'.operation ∧
    r.protocolVersion = r'.protocolVersion ∧ s = s' ∧ r.taa = r'.taa ∧ r.endorser = r'.endorser := by
  have n1 : ascii "endorser" ≠ ascii "identifier" := by decide +kernel
  have n2 : ascii "reqId" ≠ ascii "signature" := by decide +kernel
  have n3 : ascii "reqId" ≠ ascii "time" := by decide +kernel
  have n4 : ascii "signature" ≠ ascii "time" := by decide +kernel
  obtain ⟨idr, rid, op, pv, sg, taa, en⟩ := r
  obtain ⟨idr', rid', op', pv', sg', taa', en'⟩ := r'
  unfold segs at h
  simp only at h ⊢
  have hh : idr = idr' ∧ en = en' ∧ opSegs (sortItems op) ++ tailSegs s ⟨idr, rid, op, pv, sg, taa, en⟩ =
      opSegs (sortItems op') ++ tailSegs s' ⟨idr', rid', op', pv', sg', taa', en'⟩ := by
    cases en <;> cases en' <;> simp [headSegs] at h
    · exact ⟨h.1, rfl, h.2⟩
    · exact absurd h.1.1.symm n1
    · exact absurd h.1.1 n1
    · exact ⟨h.2.1, by rw [h.1], h.2.2⟩
  obtain ⟨h1, h2, h3⟩ := hh
  have ti : ∀ a b : Int, intText a = intText b → a = b := fun a b h => intText_inj h
  have tr : ∀ x y : Bytes × Bytes × Int, x.1 = y.1 → x.2.1 = y.2.1 → intText x.2.2 = intText y.2.2 → x = y :=
    fun x y e1 e2 e3 => Prod.ext e1 (Prod.ext e2 (ti _ _ e3))
  have fin : opSegs (sortItems op) = opSegs (sortItems op') ∧ s = s' ∧ taa = taa' ∧ pv = pv' ∧ rid = rid' := by
    have hr := congrArg List.reverse h3
    cases s <;> cases s' <;> cases taa <;> cases taa' <;> simp [tailSegs, List.reverse_append] at hr
    all_goals first
      | (exact absurd hr.1.1 n3) | (exact absurd hr.1.1.symm n3) | (exact absurd hr.1.1 n2) | (exact absurd hr.1.1.symm n2)
      | (exact absurd hr.1.1 n4) | (exact absurd hr.1.1.symm n4)
      | (exact absurd hr.2.2.2.1.1 n2) | (exact absurd hr.2.2.2.1.1.symm n2)
      | skip
    · exact ⟨hr.2.2, rfl, rfl, ti _ _ hr.2.1, ti _ _ hr.1⟩
    · next x y => exact ⟨hr.2.2.2.2.2, rfl, by rw [tr x y hr.2.2.1 hr.2.1 hr.1], ti _ _ hr.2.2.2.2.1, ti _ _ hr.2.2.2.1⟩
    · exact ⟨hr.2.2.2, by rw [hr.1], rfl, ti _ _ hr.2.2.1, ti _ _ hr.2.1⟩
    · next x y => exact ⟨hr.2.2.2.2.2.2, by rw [hr.2.2.2.1], by rw [tr x y hr.2.2.1 hr.2.1 hr.1], ti _ _ hr.2.2.2.2.2.1,
        ti _ _ hr.2.2.2.2.1⟩
  exact ⟨h1, fin.2.2.2.2, opSegs_inj fin.1, fin.2.2.2.1, fin.2.1, fin.2.2.1, h2⟩

/-- The same author, number, operation, version, agreement acceptance and endorser. -/
def SamePayload (r r' : Flat) : Prop :=
  r.identifier = r'.identifier ∧ r.reqId = r'.reqId ∧ (∀ e, e ∈ r.operation ↔ e ∈ r'.operation) ∧
    r.protocolVersion = r'.protocolVersion ∧ r.taa = r'.taa ∧ r.endorser = r'.endorser

theorem sameOp {r r' : Flat} (h : r.Plain) (h' : r'.Plain) (e : sortItems r.operation = sortItems r'.operation) :
    ∀ x, x ∈ r.operation ↔ x ∈ r'.operation := fun x => by
  rw [← (sortItems_spec _ h.keys).2, e, (sortItems_spec _ h'.keys).2]

/-- C42, for requests whose operation is a dict of texts and whose texts hold none of
`,` `:` `|`: the payload digest, which is also what is signed, is that of one payload
only, unless the two serialized payloads collide under the hash. The operations may
have any fields.

Missing: operations with nested data, and texts with delimiters, see
`signing_bytes_ambiguous`. -/
theorem payload_digest_partial (H : Bytes → Bytes) (floatStr : UInt64 → Bytes) (r r' : Flat) (h : r.Plain) (h' : r'.Plain)
    (e : r.toRequest.payloadDigest H floatStr = r'.toRequest.payloadDigest H floatStr) :
    ∃ x y, r.toRequest.payloadBytes floatStr = some x ∧ r'.toRequest.payloadBytes floatStr = some y ∧
      (Collision H [x] [y] ∨ SamePayload r r') := by
  have b := (digestBytes_flat floatStr r h.idr0).2
  have b' := (digestBytes_flat floatStr r' h'.idr0).2
  refine ⟨_, _, b, b', ?_⟩
  unfold Request.payloadDigest at e
  rw [b, b'] at e
  simp only [Option.map_some, Option.some.injEq] at e
  by_cases c : text (segs none r) = text (segs none r')
  · right
    have := text_inj _ _ (segs_plain none r h (by simp)) (segs_plain none r' h' (by simp)) (by simp [segs, headSegs])
      (by simp [segs, headSegs]) c
    obtain ⟨h1, h2, h3, h4, -, h6, h7⟩ := segs_inj none none r r' this
    exact ⟨h1, h2, sameOp h h' h3, h4, h6, h7⟩
  · left
    exact ⟨_, by simp, _, by simp, c, e⟩

/-- The same for the digest of a request, which covers the signature too. -/
theorem request_digest_partial (H : Bytes → Bytes) (floatStr : UInt64 → Bytes) (r r' : Flat) (h : r.Plain) (h' : r'.Plain)
    (e : r.toRequest.digest H floatStr = r'.toRequest.digest H floatStr) :
    ∃ x y, r.toRequest.digestBytes floatStr = some x ∧ r'.toRequest.digestBytes floatStr = some y ∧
      (Collision H [x] [y] ∨ (SamePayload r r' ∧ r.signature = r'.signature)) := by
  have b := (digestBytes_flat floatStr r h.idr0).1
  have b' := (digestBytes_flat floatStr r' h'.idr0).1
  refine ⟨_, _, b, b', ?_⟩
  unfold Request.digest at e
  rw [b, b'] at e
  simp only [Option.map_some, Option.some.injEq] at e
  by_cases c : text (segs r.signature r) = text (segs r'.signature r')
  · right
    have := text_inj _ _ (segs_plain _ r h h.sig) (segs_plain _ r' h' h'.sig) (by simp [segs, headSegs])
      (by simp [segs, headSegs]) c
    obtain ⟨h1, h2, h3, h4, h5, h6, h7⟩ := segs_inj _ _ r r' this
    exact ⟨⟨h1, h2, sameOp h h' h3, h4, h6, h7⟩, h5⟩
  · left
    exact ⟨_, by simp, _, by simp, c, e⟩

private def nym : Flat where
  identifier := t "Th7MpTaRZVRYnPiabds81Y"
  reqId := 7
  operation := [(t "type", t "1"), (t "dest", t "V4SGRU86Z58d6TV7PBUe6f"), (t "role", t "101")]
  protocolVersion := 2
  signature := some (t "sig")
  taa := some (t "click", t "abc", 1500)
  endorser := none

example : nym.Plain := by
  constructor <;> simp only [nym, PlainText] <;>
    first | decide +kernel | (simp only [Option.some.injEq, Prod.mk.injEq]; try decide +kernel) | skip
  rintro m d n ⟨rfl, rfl, rfl⟩
  decide +kernel
example (fs : UInt64 → Bytes) : nym.toRequest.payloadBytes fs =
    some (t "identifier:Th7MpTaRZVRYnPiabds81Y|operation:dest:V4SGRU86Z58d6TV7PBUe6f|role:101|type:1|protocolVersion:2|reqId:7|taaAcceptance:mechanism:click|taaDigest:abc|time:1500") := by
  rw [(digestBytes_flat fs nym (by decide +kernel)).2]; decide +kernel

/-! ## Requests with several signatures -/

theorem serItems_append (fs : UInt64 → Bytes) (a b : List (Bytes × Val)) (z : List (Bytes × Bytes))
    (h : serItems fs (a ++ b) = some z) : ∃ x y, serItems fs a = some x ∧ serItems fs b = some y ∧ z = x ++ y := by
  induction a generalizing z with
  | nil => exact ⟨[], z, rfl, h, rfl⟩
  | cons e r ih =>
    obtain ⟨k, v⟩ := e
    rw [List.cons_append, serItems] at h
    split at h
    · next x y hx hy =>
      cases h
      obtain ⟨x', y', h1, h2, rfl⟩ := ih y hy
      exact ⟨(k, x) :: x', y', by rw [serItems, hx, h1], h2, rfl⟩
    · cases h

theorem serItems_field (fs : UInt64 → Bytes) (name : String) (v : Option Val) (x : List (Bytes × Bytes))
    (h : serItems fs (field name v) = some x) : ∃ o, (v.map (ser fs)) = o.map some ∧ x = fieldB name o := by
  cases v with
  | none => simp [field, serItems] at h; exact ⟨none, rfl, h⟩
  | some v =>
    simp only [field, serItems] at h
    split at h
    · next a b ha hb => cases hb; cases h; exact ⟨some a, by simp [ha], rfl⟩
    · cases h

/-- The serialized signatures. -/
def sigsText (d : List (Bytes × Bytes)) : Bytes := join bar ((sortItems d).map item)

theorem ser_sigs (fs : UInt64 → Bytes) (d : List (Bytes × Bytes)) :
    ser fs (.dict (d.map (fun e => (e.1, Val.str e.2)))) = some (sigsText d) := by
  rw [ser, serItems_texts]; rfl

theorem sort_all_fields (i r o : Bytes) (p tx en ss sg : Option Bytes) :
    sortItems ([(ascii "identifier", i), (ascii "reqId", r), (ascii "operation", o)] ++ fieldB "protocolVersion" p ++
      fieldB "taaAcceptance" tx ++ fieldB "endorser" en ++ fieldB "signatures" ss ++ fieldB "signature" sg) =
    fieldB "endorser" en ++ (ascii "identifier", i) :: ((ascii "operation", o) :: (fieldB "protocolVersion" p ++
      (ascii "reqId", r) :: fieldB "signature" sg) ++ (fieldB "signatures" ss ++ fieldB "taaAcceptance" tx)) := by
  cases p <;> cases tx <;> cases en <;> cases ss <;> cases sg <;> rfl

/-- The serialized request: `o`, `tx` are the serialized operation and agreement acceptance. -/
def reqText (i : Bytes) (ss : Option Bytes) (o : Bytes) (p tx en sg : Option Bytes) (r : Bytes) : Bytes :=
  join bar ((fieldB "endorser" en ++ (ascii "identifier", i) :: ((ascii "operation", o) :: (fieldB "protocolVersion" p ++
      (ascii "reqId", r) :: fieldB "signature" sg) ++ (fieldB "signatures" ss ++ fieldB "taaAcceptance" tx))).map item)

theorem optStr_some (fs : UInt64 → Bytes) {a : Option Bytes} {o : Option Bytes}
    (h : (a.map Val.str).map (ser fs) = o.map some) : o = a := by
  cases a <;> cases o <;> simp [ser] at h <;> simp [h]

theorem optInt_some (fs : UInt64 → Bytes) {a : Option Int} {o : Option Bytes}
    (h : (a.map Val.int).map (ser fs) = o.map some) : o = a.map intText := by
  cases a <;> cases o <;> simp [ser] at h <;> simp [h]

theorem payload_items (fs : UInt64 → Bytes) (q : Request) (i : Bytes) (hi : q.idr = some i) (z : List (Bytes × Bytes))
    (h : serItems fs q.signingPayloadState = some z) :
    ∃ o tx, ser fs q.operation = some o ∧ q.taaAcceptance.map (ser fs) = tx.map some ∧
      z = [(ascii "identifier", i), (ascii "reqId", intText q.reqId), (ascii "operation", o)] ++
        fieldB "protocolVersion" (q.protocolVersion.map intText) ++ fieldB "taaAcceptance" tx ++ fieldB "endorser" q.endorser := by
  unfold Request.signingPayloadState at h
  obtain ⟨z1, z2, h1, h2, rfl⟩ := serItems_append fs _ _ _ h
  obtain ⟨z3, z4, h3, h4, rfl⟩ := serItems_append fs _ _ _ h1
  obtain ⟨z5, z6, h5, h6, rfl⟩ := serItems_append fs _ _ _ h3
  obtain ⟨en, e1, rfl⟩ := serItems_field fs _ _ _ h2
  obtain ⟨tx, e2, rfl⟩ := serItems_field fs _ _ _ h4
  obtain ⟨pv, e3, rfl⟩ := serItems_field fs _ _ _ h6
  have e1' := optStr_some fs e1
  have e3' := optInt_some fs e3
  subst e1' e3'
  rw [hi] at h5
  cases ho : ser fs q.operation with
  | none => simp [serItems, ser, optText, ho] at h5
  | some o =>
    simp [serItems, ser, optText, ho] at h5
    subst h5
    exact ⟨o, tx, rfl, e2, rfl⟩

theorem payload_text (fs : UInt64 → Bytes) (q : Request) (i : Bytes) (hi : q.idr = some i) (x : Bytes)
    (h : q.payloadBytes fs = some x) :
    ∃ o tx, ser fs q.operation = some o ∧ q.taaAcceptance.map (ser fs) = tx.map some ∧
      x = reqText i none o (q.protocolVersion.map intText) tx q.endorser none (intText q.reqId) := by
  unfold Request.payloadBytes at h
  rw [ser_top, ser] at h
  cases hz : serItems fs q.signingPayloadState with
  | none => rw [hz] at h; cases h
  | some z =>
    rw [hz] at h
    cases h
    obtain ⟨o, tx, h1, h2, rfl⟩ := payload_items fs q i hi z hz
    refine ⟨o, tx, h1, h2, ?_⟩
    have := sort_all_fields i (intText q.reqId) o (q.protocolVersion.map intText) tx q.endorser none none
    rw [show fieldB "signatures" none = [] from rfl, show fieldB "signature" none = [] from rfl, List.append_nil,
      List.append_nil] at this
    show join bar (List.map item (sortItems _)) = _
    rw [this]
    rfl

theorem digest_text (fs : UInt64 → Bytes) (q : Request) (i : Bytes) (hi : q.idr = some i) (x : Bytes)
    (h : q.digestBytes fs = some x) :
    ∃ o tx, ser fs q.operation = some o ∧ q.taaAcceptance.map (ser fs) = tx.map some ∧
      x = reqText i (q.signatures.map sigsText) o (q.protocolVersion.map intText) tx q.endorser q.signature (intText q.reqId) := by
  unfold Request.digestBytes at h
  rw [ser_top, ser] at h
  cases hz : serItems fs q.signingState with
  | none => rw [hz] at h; cases h
  | some z =>
    rw [hz] at h
    cases h
    unfold Request.signingState at hz
    obtain ⟨z1, z2, h1, h2, rfl⟩ := serItems_append fs _ _ _ hz
    obtain ⟨z3, z4, h3, h4, rfl⟩ := serItems_append fs _ _ _ h1
    obtain ⟨sg, e1, rfl⟩ := serItems_field fs _ _ _ h2
    obtain ⟨ss, e2, rfl⟩ := serItems_field fs _ _ _ h4
    have e1' := optStr_some fs e1
    have e2' : ss = q.signatures.map sigsText := by
      cases hs : q.signatures <;> cases ss <;> rw [hs] at e2 <;> simp [ser_sigs] at e2 <;> simp [e2]
    subst e1' e2'
    obtain ⟨o, tx, k1, k2, rfl⟩ := payload_items fs q i hi z3 h3
    refine ⟨o, tx, k1, k2, ?_⟩
    show join bar (List.map item (sortItems _)) = _
    rw [sort_all_fields]
    rfl

/-- What precedes a middle element, with its bar. -/
def before' (a : List Bytes) : Bytes := if a = [] then [] else join bar a ++ [bar]
/-- What follows a middle element, with its bar. -/
def after' (a : List Bytes) : Bytes := if a = [] then [] else bar :: join bar a

theorem join_mid (a : List Bytes) (m : Bytes) (b : List Bytes) :
    join bar (a ++ m :: b) = before' a ++ (m ++ after' b) := by
  have hb : join bar (m :: b) = m ++ after' b := by
    unfold after'
    cases b with
    | nil => simp [join]
    | cons y s => simp [join]
  unfold before'
  cases a with
  | nil => simpa using hb
  | cons x r =>
    rw [join_append _ _ (by simp) (by simp), hb]
    simp

theorem cut_bar (a a' r r' : Bytes) (h : bar ∉ a) (h' : bar ∉ a') (e : a ++ bar :: r = a' ++ bar :: r') : a = a' ∧ r = r' := by
  induction a generalizing a' with
  | nil => cases a' with
    | nil => simpa using e
    | cons c t => simp at e; exact absurd (by rw [e.1]; simp) h'
  | cons c t ih => cases a' with
    | nil => simp at e; exact absurd (by rw [e.1]; simp) h
    | cons c' t' =>
      simp only [List.cons_append, List.cons.injEq] at e
      have := ih t' (fun hh => h (List.mem_cons_of_mem _ hh)) (fun hh => h' (List.mem_cons_of_mem _ hh)) e.2
      exact ⟨by rw [e.1, this.1], this.2⟩

theorem reqText_idr (i i' : Bytes) (ss ss' : Option Bytes) (o : Bytes) (p tx en sg : Option Bytes) (r : Bytes)
    (hi : bar ∉ i) (hi' : bar ∉ i') (h : reqText i ss o p tx en sg r = reqText i' ss' o p tx en sg r) : i = i' := by
  unfold reqText at h
  simp only [List.map_append, List.map_cons] at h
  rw [join_mid, join_mid] at h
  have h := List.append_cancel_left h
  unfold after' at h
  simp only [List.cons_append, reduceCtorEq, if_false, item, List.append_assoc] at h
  have h := List.append_cancel_left h
  simp only [List.cons.injEq, true_and] at h
  exact (cut_bar _ _ _ _ hi hi' h).1

theorem reqText_sigs (i s s' : Bytes) (o : Bytes) (p tx en sg : Option Bytes) (r : Bytes)
    (h : reqText i (some s) o p tx en sg r = reqText i (some s') o p tx en sg r) : s = s' := by
  unfold reqText at h
  have e : ∀ x : Bytes, (fieldB "endorser" en ++ (ascii "identifier", i) :: ((ascii "operation", o) :: (fieldB "protocolVersion" p ++
      (ascii "reqId", r) :: fieldB "signature" sg) ++ (fieldB "signatures" (some x) ++ fieldB "taaAcceptance" tx))).map item =
      ((fieldB "endorser" en ++ (ascii "identifier", i) :: ((ascii "operation", o) :: (fieldB "protocolVersion" p ++
      (ascii "reqId", r) :: fieldB "signature" sg))).map item) ++ item (ascii "signatures", x) :: (fieldB "taaAcceptance" tx).map item := by
    intro x; simp [fieldB]
  rw [e, e, join_mid, join_mid] at h
  have h := List.append_cancel_left h
  have h := List.append_cancel_right h
  unfold item at h
  have h := List.append_cancel_left h
  simpa using h

theorem sigsText_inj (d d' : List (Bytes × Bytes)) (h0 : d ≠ []) (h0' : d' ≠ []) (hk : (d.map Prod.fst).Nodup)
    (hk' : (d'.map Prod.fst).Nodup) (hp : ∀ e ∈ d, PlainText e.1 ∧ PlainText e.2) (hp' : ∀ e ∈ d', PlainText e.1 ∧ PlainText e.2)
    (h : sigsText d = sigsText d') : ∀ e, e ∈ d ↔ e ∈ d' := by
  have m : ∀ e, e ∈ sortItems d ↔ e ∈ d := (sortItems_spec d hk).2
  have m' : ∀ e, e ∈ sortItems d' ↔ e ∈ d' := (sortItems_spec d' hk').2
  have t1 : ∀ l : List (Bytes × Bytes), l.map item = (l.map (fun e => [e.1, e.2])).map (join colon) := by
    intro l; rw [List.map_map]; apply List.map_congr_left; intro x _; simp [join, item]
  have n0 : ∀ (d : List (Bytes × Bytes)), d ≠ [] → (∀ e, e ∈ sortItems d ↔ e ∈ d) → sortItems d ≠ [] := by
    intro d hd hm hc
    cases d with
    | nil => exact hd rfl
    | cons e r => have := (hm e).2 (by simp); rw [hc] at this; simp at this
  have e := text_inj ((sortItems d).map (fun e => [e.1, e.2])) ((sortItems d').map (fun e => [e.1, e.2]))
    (by
      intro s hs
      obtain ⟨x, hx, rfl⟩ := List.mem_map.1 hs
      have := hp x ((m x).1 hx)
      simp [this.1, this.2])
    (by
      intro s hs
      obtain ⟨x, hx, rfl⟩ := List.mem_map.1 hs
      have := hp' x ((m' x).1 hx)
      simp [this.1, this.2])
    (by simpa using n0 d h0 m) (by simpa using n0 d' h0' m')
    (by unfold text; rw [← t1, ← t1]; exact h)
  have hi : ∀ x y : Bytes × Bytes, [x.1, x.2] = [y.1, y.2] → x = y := by
    intro x y hxy
    simp only [List.cons.injEq, and_true] at hxy
    exact Prod.ext hxy.1 hxy.2
  have e := List.map_inj_right hi |>.1 e
  intro x
  rw [← m, ← m', e]

/-- Signers and signatures of a request signed by several: given, of different
signers, without any of `,` `:` `|`. -/
structure PlainSigs (d : List (Bytes × Bytes)) : Prop where
  some : d ≠ []
  keys : (d.map Prod.fst).Nodup
  plain : ∀ e ∈ d, PlainText e.1 ∧ PlainText e.2

theorem genIdr_some {d : List (Bytes × Bytes)} (h : d ≠ []) :
    genIdrFromSigs (some d) = some (join comma ((sortItems d).map Prod.fst)) := by
  cases d with
  | nil => exact absurd rfl h
  | cons e r => rfl

theorem idr_bar {d : List (Bytes × Bytes)} (h : PlainSigs d) : bar ∉ join comma ((sortItems d).map Prod.fst) := by
  have m := (sortItems_spec d h.keys).2
  have hp : ∀ x ∈ (sortItems d).map Prod.fst, bar ∉ x := by
    intro x hx hc
    obtain ⟨e, he, rfl⟩ := List.mem_map.1 hx
    exact ((h.plain e ((m e).1 he)).1 _ hc).2.2 rfl
  generalize (sortItems d).map Prod.fst = l at hp
  induction l with
  | nil => simp [join]
  | cons x r ih =>
    have hx := hp x (by simp)
    have hr := ih (fun y hy => hp y (by simp [hy]))
    cases r with
    | nil => simpa [join] using hx
    | cons y s =>
      simp only [join, List.mem_append, List.mem_cons, not_or]
      exact ⟨hx, by decide, hr⟩

theorem idr_signers {d d' : List (Bytes × Bytes)} (h : PlainSigs d) (h' : PlainSigs d')
    (e : join comma ((sortItems d).map Prod.fst) = join comma ((sortItems d').map Prod.fst)) :
    ∀ k, k ∈ d.map Prod.fst ↔ k ∈ d'.map Prod.fst := by
  have aux : ∀ d : List (Bytes × Bytes), PlainSigs d → (sortItems d).map Prod.fst ≠ [] ∧
      (∀ x ∈ (sortItems d).map Prod.fst, comma ∉ x) ∧ ∀ k, k ∈ (sortItems d).map Prod.fst ↔ k ∈ d.map Prod.fst := by
    intro d h
    have m := (sortItems_spec d h.keys).2
    refine ⟨?_, ?_, ?_⟩
    · intro hc
      cases hd : d with
      | nil => exact h.some hd
      | cons x r =>
        have := (m x).2 (by rw [hd]; simp)
        rw [List.map_eq_nil_iff.1 hc] at this
        simp at this
    · intro x hx hc
      obtain ⟨e, he, rfl⟩ := List.mem_map.1 hx
      exact ((h.plain e ((m e).1 he)).1 _ hc).1 rfl
    · intro k
      simp only [List.mem_map, m]
  have a := aux d h
  have a' := aux d' h'
  have := join_inj _ _ a.2.1 a'.2.1 a.1 a'.1 e
  intro k
  rw [← a.2.2, this, a'.2.2]

/-- C42, for two requests with several signatures that differ in nothing but the
signatures: the payload digest, which each of them signs, depends on who signs. -/
theorem multisig_payload_partial (H : Bytes → Bytes) (floatStr : UInt64 → Bytes) (r : Request) (d d' : List (Bytes × Bytes))
    (hr : r.identifier = none) (h : PlainSigs d) (h' : PlainSigs d') (x y : Bytes)
    (hx : { r with signatures := some d }.payloadBytes floatStr = some x)
    (hy : { r with signatures := some d' }.payloadBytes floatStr = some y) (e : H x = H y) :
    Collision H [x] [y] ∨ ∀ k, k ∈ d.map Prod.fst ↔ k ∈ d'.map Prod.fst := by
  by_cases c : x = y
  · right
    have hid : ∀ d : List (Bytes × Bytes), PlainSigs d → { r with signatures := some d }.idr =
        some (join comma ((sortItems d).map Prod.fst)) := by
      intro d h
      unfold Request.idr
      simp only [hr]
      exact genIdr_some h.some
    obtain ⟨o, tx, k1, k2, rfl⟩ := payload_text floatStr _ _ (hid d h) x hx
    obtain ⟨o', tx', k1', k2', rfl⟩ := payload_text floatStr _ _ (hid d' h') y hy
    have eo : o = o' := by rw [k1] at k1'; exact Option.some.inj k1'
    have et : tx = tx' := by
      rw [k2] at k2'
      cases tx <;> cases tx' <;> simp at k2' <;> simp [k2']
    subst eo et
    exact idr_signers h h' (reqText_idr _ _ _ _ _ _ _ _ _ _ (idr_bar h) (idr_bar h') c)
  · left; exact ⟨_, by simp, _, by simp, c, e⟩

/-- The same for the digest, which depends on the signatures too. -/
theorem multisig_digest_partial (H : Bytes → Bytes) (floatStr : UInt64 → Bytes) (r : Request) (d d' : List (Bytes × Bytes))
    (hr : r.identifier = none) (h : PlainSigs d) (h' : PlainSigs d') (x y : Bytes)
    (hx : { r with signatures := some d }.digestBytes floatStr = some x)
    (hy : { r with signatures := some d' }.digestBytes floatStr = some y) (e : H x = H y) :
    Collision H [x] [y] ∨ ∀ s, s ∈ d ↔ s ∈ d' := by
  by_cases c : x = y
  · right
    have hid : ∀ d : List (Bytes × Bytes), PlainSigs d → { r with signatures := some d }.idr =
        some (join comma ((sortItems d).map Prod.fst)) := by
      intro d h
      unfold Request.idr
      simp only [hr]
      exact genIdr_some h.some
    obtain ⟨o, tx, k1, k2, rfl⟩ := digest_text floatStr _ _ (hid d h) x hx
    obtain ⟨o', tx', k1', k2', rfl⟩ := digest_text floatStr _ _ (hid d' h') y hy
    have eo : o = o' := by rw [k1] at k1'; exact Option.some.inj k1'
    have et : tx = tx' := by
      rw [k2] at k2'
      cases tx <;> cases tx' <;> simp at k2' <;> simp [k2']
    subst eo et
    have ei := reqText_idr _ _ _ _ _ _ _ _ _ _ (idr_bar h) (idr_bar h') c
    rw [ei] at c
    exact sigsText_inj d d' h.some h'.some h.keys h'.keys h.plain h'.plain (reqText_sigs _ _ _ _ _ _ _ _ _ c)
  · left; exact ⟨_, by simp, _, by simp, c, e⟩

example (fs : UInt64 → Bytes) : (Request.mk none 7 (.dict [(t "type", .str (t "1"))]) none
      (some [(t "B", t "s2"), (t "A", t "s1")]) none none none).digestBytes fs =
    some (t "identifier:A,B|operation:type:1|reqId:7|signatures:A:s1|B:s2") := by rfl
example : PlainSigs [(t "B", t "s2"), (t "A", t "s1")] := by
  refine ⟨by simp, by decide +kernel, ?_⟩
  unfold PlainText; decide +kernel

/-! ## Batch digest -/

theorem serAll_texts (fs : UInt64 → Bytes) (l : List Bytes) : serAll fs (l.map Val.str) = some l := by
  induction l with
  | nil => rfl
  | cons e r ih => simp [serAll, ser, ih]

/-- C69: the digest of a batch identifies its original view, its time and the list of
its requests in order, unless the two serialized batches collide under the hash.
Request digests are hexadecimal, so they hold no comma. -/
theorem pp_digest_binds (H : Bytes → Bytes) (floatStr : UInt64 → Bytes) (ds ds' : List Bytes) (v v' t t' : Int)
    (hd : ∀ d ∈ ds, comma ∉ d) (hd' : ∀ d ∈ ds', comma ∉ d)
    (e : generatePpDigest H floatStr ds v t = generatePpDigest H floatStr ds' v' t') :
    ∃ x y, ppBytes floatStr ds v t = some x ∧ ppBytes floatStr ds' v' t' = some y ∧
      (Collision H [x] [y] ∨ (v = v' ∧ t = t' ∧ ds = ds')) := by
  have b : ∀ ds v t, ppBytes floatStr ds v t = some (join comma (intText v :: intText t :: ds)) := by
    intro ds v t
    unfold ppBytes
    rw [ser_top]
    simp [ser, serAll, serAll_texts]
  refine ⟨_, _, b ds v t, b ds' v' t', ?_⟩
  unfold generatePpDigest at e
  rw [b, b] at e
  simp only [Option.map_some, Option.some.injEq] at e
  by_cases c : join comma (intText v :: intText t :: ds) = join comma (intText v' :: intText t' :: ds')
  · right
    have hi : ∀ n : Int, comma ∉ intText n := fun n hc => (intText_plain n _ hc).1 rfl
    have hc : ∀ (v t : Int) (l : List Bytes), (∀ d ∈ l, comma ∉ d) → ∀ x ∈ intText v :: intText t :: l, comma ∉ x := by
      intro v t l hl x hx
      simp only [List.mem_cons] at hx
      rcases hx with rfl | rfl | hx
      · exact hi _
      · exact hi _
      · exact hl x hx
    have := join_inj _ _ (hc v t ds hd) (hc v' t' ds' hd') (by simp) (by simp) c
    simp only [List.cons.injEq] at this
    exact ⟨intText_inj this.1, intText_inj this.2.1, this.2.2⟩
  · left
    exact ⟨_, by simp, _, by simp, c, e⟩

example (fs : UInt64 → Bytes) : ppBytes fs [t "ab", t "cd"] 3 1500 = some (t "3,1500,ab,cd") := by rfl
example (H : Bytes → Bytes) (fs : UInt64 → Bytes) : (generatePpDigest H fs [] 0 (-5)).isSome = true := by rfl

end Verif.Props
