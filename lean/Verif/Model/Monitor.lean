import Verif.Model.Dict
/-!
# The monitor: how fast the instances order, and whether the master is too slow

Numbers which are floats in the code are exact here: throughputs and latencies are rational
numbers, and times are natural numbers, counted in ticks of any fixed length. Left out: the
accumulating strategy (`ACC_MONITOR_ENABLED` is False), statistics which are only sent or logged,
and the strategies for measuring and averaging which are not those of plenum/config.py:148-162.
-/
namespace Verif.Monitor
open Verif

/-- The number of an instance; the master has number 0. -/
abbrev Inst := Nat

/-- The digest of a request. -/
abbrev Key := Nat

/-- Settings: `window_size` and `min_cnt` of `throughput_measurement_params`, `DELTA`, `OMEGA`,
`MIN_LATENCY_COUNT` and `UnorderedCheckFreq`. plenum/config.py:135-162. -/
structure Cfg where
  window : Nat
  minCnt : Nat
  delta : Rat
  omega : Rat
  minLat : Nat
  freq : Nat

/-! ## Throughput of one instance -/

/-- plenum/common/throughput_measurements.py:30-45, `__init__`: `alpha`. -/
def Cfg.alpha (c : Cfg) : Rat := 2 / ((c.minCnt : Rat) + 1)

/-- plenum/common/throughput_measurements.py:110-115, `State`. -/
inductive Phase where
  | normal
  | idle
  | faded
  | revival
deriving DecidableEq, Repr

/-- plenum/common/throughput_measurements.py:117-136, `__init__`, `init_time`, and 30-48, 82-91. `idle_start_ts` and
`revival_start_ts` are not used by the code. The numbers of the revival are `None` before the first one. -/
structure Meas where
  first : Nat
  start : Nat
  reqs : Nat := 0
  thr : Option Rat := some 0
  phase : Phase := .faded
  before : Option Rat := some 0
  empty : Nat := 0
  revWins : Nat := 0
  revReqs : Nat := 0
deriving DecidableEq, Repr

/-- plenum/common/throughput_measurements.py:54-58, `_accumulate`. With `None` for the old value Python raises;
see `C89_never_none` for why this is not met. -/
def acc (c : Cfg) (old : Option Rat) (x : Rat) : Option Rat := old.map fun o => o * (1 - c.alpha) + x * c.alpha

/-- `self.reqs_in_window / self.window_size`. -/
def rate (c : Cfg) (n : Nat) : Rat := (n : Rat) / (c.window : Rat)

/-- plenum/common/throughput_measurements.py:138-146, `_process_window_in_normal_mode`. -/
def windowNormal (c : Cfg) (m : Meas) : Meas :=
  let m := if m.reqs = 0 then { m with phase := .idle, before := m.thr, empty := 1 } else m
  { m with thr := acc c m.thr (rate c m.reqs) }

/-- plenum/common/throughput_measurements.py:148-157, `_process_window_in_idle_mode`. -/
def windowIdle (c : Cfg) (m : Meas) : Meas :=
  let m := if m.reqs = 0 then
      { m with empty := m.empty + 1, phase := if m.empty + 1 = c.minCnt then .faded else m.phase }
    else { m with phase := .normal }
  { m with thr := acc c m.thr (rate c m.reqs) }

/-- plenum/common/throughput_measurements.py:159-168, `_process_window_in_faded_mode`. -/
def windowFaded (c : Cfg) (m : Meas) : Meas :=
  if m.reqs = 0 then { m with empty := m.empty + 1, thr := acc c m.thr 0 }
  else { m with phase := .revival, revWins := 1, revReqs := m.reqs, thr := none }

/-- The loop in `_level_reqs_after_revival`. -/
def accN (c : Cfg) (x : Rat) : Nat → Option Rat → Option Rat
  | 0, o => o
  | n + 1, o => accN c x n (acc c o x)

/-- plenum/common/throughput_measurements.py:170-180, `_level_reqs_after_revival`. -/
def level (c : Cfg) (m : Meas) : Meas :=
  let n := m.empty + m.revWins
  { m with thr := accN c ((m.revReqs : Rat) / (n : Rat) / (c.window : Rat)) n m.before }

/-- The end of a revival with an empty window. -/
def revivalEnd (c : Cfg) (m : Meas) : Meas :=
  let m := level c m
  { m with phase := .idle, before := m.thr, empty := 1, thr := acc c m.thr 0 }

/-- plenum/common/throughput_measurements.py:182-195, `_process_window_in_revival_mode`. -/
def windowRevival (c : Cfg) (m : Meas) : Meas :=
  if m.reqs > 0 then
    let m := { m with revWins := m.revWins + 1, revReqs := m.revReqs + m.reqs }
    if m.revWins = c.minCnt then { level c m with phase := .normal } else m
  else revivalEnd c m

/-- plenum/common/throughput_measurements.py:197-208, `_process_window`. -/
def process (c : Cfg) (m : Meas) : Meas :=
  match m.phase with
  | .normal => windowNormal c m
  | .idle => windowIdle c m
  | .faded => windowFaded c m
  | .revival => windowRevival c m

/-- One turn of the loop in `_update_time`: the window ends. -/
def window (c : Cfg) (m : Meas) : Meas := { process c m with start := m.start + c.window, reqs := 0 }

/-- So many turns of the loop. -/
def windows (c : Cfg) : Nat → Meas → Meas
  | 0, m => m
  | n + 1, m => windows c n (window c m)

/-- plenum/common/throughput_measurements.py:63-67, `_update_time`: the loop runs while the time is not before the end
of the window, so as often as windows fit between its start and the time. -/
def update (c : Cfg) (t : Nat) (m : Meas) : Meas := windows c ((t - m.start) / c.window) m

/-- plenum/common/throughput_measurements.py:50-52, `add_request`. -/
def addRequest (c : Cfg) (t : Nat) (m : Meas) : Meas :=
  let m := update c t m
  { m with reqs := m.reqs + 1 }

/-- plenum/common/throughput_measurements.py:93-96, `get_throughput`, and 69-71. Simplification: the windows which have ended are
not taken over into the state; see `update_update`: they will be at the next call. -/
def Meas.get (c : Cfg) (t : Nat) (m : Meas) : Option Rat :=
  if t < m.first + c.window * c.minCnt then none else (update c t m).thr

/-- plenum/server/monitor.py:297-306, `create_throughput_measurement`. -/
def newMeas (t : Nat) : Meas := { first := t, start := t }

/-! ## Latency of one instance -/

/-- plenum/common/latency_measurements.py:50-57, `EMALatencyMeasurementForAllClient`. -/
structure Lat where
  avg : Rat := 0
  total : Nat := 0
deriving DecidableEq, Repr

/-- `alpha` of the latency. -/
def Cfg.beta (c : Cfg) : Rat := 1 / ((c.minLat : Rat) + 1)

/-- plenum/common/latency_measurements.py:59-61, `add_duration`. -/
def Lat.add (c : Cfg) (l : Lat) (d : Nat) : Lat := { avg := l.avg * (1 - c.beta) + (d : Rat) * c.beta, total := l.total + 1 }

/-- plenum/common/latency_measurements.py:69-73, `get_avg_latency`. -/
def Lat.get (c : Cfg) (l : Lat) : Option Rat := if l.total < c.minLat then none else some l.avg

/-! ## Averages -/

/-- `sorted` of numbers. -/
def insertUp (x : Rat) : List Rat → List Rat
  | [] => [x]
  | y :: l => if x ≤ y then x :: y :: l else y :: insertUp x l

def sortUp : List Rat → List Rat
  | [] => []
  | x :: l => insertUp x (sortUp l)

/-- `median_low` of Python, for a list which is not empty. plenum/common/average_strategies.py:12-15, `MedianLowStrategy`. -/
def medianLow (l : List Rat) : Rat := (sortUp l).getD ((l.length - 1) / 2) 0

/-- `median_high` of Python. plenum/common/average_strategies.py:24-27, `MedianHighStrategy`. -/
def medianHigh (l : List Rat) : Rat := (sortUp l).getD (l.length / 2) 0

/-- `median` of Python. plenum/common/average_strategies.py:18-21, `MedianMediumStrategy`. -/
def median (l : List Rat) : Rat := if l.length % 2 = 1 then medianHigh l else (medianLow l + medianHigh l) / 2

/-! ## The monitor -/

/-- plenum/server/monitor.py:35-63, `RequestTimeTracker.Request`. -/
structure Tracked where
  since : Nat
  ordered : Dict Inst Bool
  handled : Bool := false
deriving DecidableEq, Repr

/-- What the monitor has for an instance: `numOrderedRequests`, `throughputs` and `clientAvgReqLatencies`. -/
structure Rec where
  num : Nat × Nat := (0, 0)
  meas : Meas
  lat : Lat := {}
deriving DecidableEq, Repr

/-- plenum/server/monitor.py:65-69, `RequestTimeTracker.__init__`, and 145-251. Simplification: `instances.started`, `throughputs`,
`numOrderedRequests`, `clientAvgReqLatencies` and `instances_ids` of the tracker always have the same keys, so that they are one dict here. -/
structure Mon where
  insts : Dict Inst Rec := []
  reqs : Dict Key Tracked := []
  unordered : List Key := []
  handledUn : List Key := []
deriving DecidableEq, Repr

/-- plenum/server/monitor.py:328-341, `addInstance`. -/
def addInstance (t : Nat) (i : Inst) (s : Mon) : Mon := { s with insts := s.insts.set i { meas := newMeas t } }

/-- plenum/server/monitor.py:308-326, `reset`, and 103-106 of the tracker. Simplification: the clock does not move in the loop. -/
def reset (t : Nat) (_s : Mon) : Mon :=
  { insts := _s.insts.map fun e => (e.1, { meas := newMeas t }) }

/-- plenum/server/monitor.py:61-63, `is_ordered_by_all`. -/
def Tracked.all (r : Tracked) : Bool := r.ordered.all fun e => e.2

/-- plenum/server/monitor.py:129-133, `force_req_drop`. -/
def drop (s : Mon) (k : Key) : Mon :=
  { s with reqs := s.reqs.erase k, unordered := s.unordered.filter (· ≠ k), handledUn := s.handledUn.filter (· ≠ k) }

/-- `remove_instance` of the tracker: nobody waits for this instance. -/
def Tracked.without (i : Inst) (r : Tracked) : Tracked := { r with ordered := r.ordered.erase i }

/-- The requests without an instance, before those are dropped which the others have all ordered. -/
def without (i : Inst) (reqs : Dict Key Tracked) : Dict Key Tracked := reqs.map fun e => (e.1, e.2.without i)

/-- plenum/server/monitor.py:343-351, `removeInstance`, and plenum/server/monitor.py:121-127, `remove_instance`. `none`: a KeyError, when the instance is not there. -/
def removeInstance (i : Inst) (s : Mon) : Option Mon :=
  if s.insts.isEmpty then some s
  else if s.insts.has i then
    let rs := without i s.reqs
    some ((Dict.keys (List.filter (fun e : Key × Tracked => e.2.all) rs)).foldl drop { s with insts := s.insts.erase i, reqs := rs })
  else none

/-- plenum/server/monitor.py:402-410, `requestUnOrdered`, and plenum/server/monitor.py:81-83, `start`. -/
def came (t : Nat) (k : Key) (s : Mon) : Mon :=
  { s with reqs := s.reqs.set k { since := t, ordered := s.insts.map fun e => (e.1, false) },
           unordered := if k ∈ s.unordered then s.unordered else s.unordered ++ [k] }

/-- plenum/server/monitor.py:85-96, `order`, of a tracked request. -/
def trackOrder (i : Inst) (k : Key) (r : Tracked) (s : Mon) : Mon :=
  let r := if r.ordered.has i then { r with ordered := r.ordered.set i true } else r
  let s := if i = 0 then { s with unordered := s.unordered.filter (· ≠ k), handledUn := s.handledUn.filter (· ≠ k) } else s
  if r.all then { s with reqs := s.reqs.erase k } else { s with reqs := s.reqs.set k r }

/-- One turn of the loop in `requestOrdered`: a request which is tracked is counted. `known` says whether the node still
has the request. -/
def orderOne (c : Cfg) (known : Key → Bool) (t : Nat) (i : Inst) (x : Mon × Rec × Dict Key Nat) (k : Key) : Mon × Rec × Dict Key Nat :=
  match x.1.reqs.get? k with
  | none => x
  | some r =>
    (trackOrder i k r x.1,
     { x.2.1 with meas := addRequest c t x.2.1.meas,
                  lat := if known k then x.2.1.lat.add c (t - r.since) else x.2.1.lat },
     x.2.2.set k (t - r.since))

/-- plenum/server/monitor.py:353-400, `requestOrdered`: an instance has ordered a batch. The answer is the time each request took. `none`: a KeyError,
when there is no such instance. -/
def ordered (c : Cfg) (known : Key → Bool) (t : Nat) (i : Inst) (ks : List Key) (s : Mon) : Option (Mon × Dict Key Nat) :=
  match s.insts.get? i with
  | none => none
  | some r =>
    let x := ks.foldl (orderOne c known t i) (s, r, [])
    let r := { x.2.1 with num := (x.2.1.num.1 + x.2.2.length, x.2.1.num.2 + (x.2.2.map Prod.snd).sum) }
    some ({ x.1 with insts := x.1.insts.set i r }, x.2.2)

/-- plenum/server/monitor.py:114-116, `unhandled_unordered`, of a request that waits for too long. `none`: a KeyError of `is_ordered` when
the request came while there was no master instance. -/
def late (c : Cfg) (t : Nat) (e : Key × Tracked) : Option Bool :=
  match e.2.ordered.get? 0 with
  | none => none
  | some b => some (!b && !e.2.handled && decide (t - e.2.since > c.freq))

/-- The requests in a list which wait for too long. -/
def lates (c : Cfg) (t : Nat) : Dict Key Tracked → Option (List Key)
  | [] => some []
  | e :: l =>
    match late c t e, lates c t l with
    | some b, some ks => some (if b then e.1 :: ks else ks)
    | _, _ => none

/-- plenum/server/monitor.py:98-101, `handle`. -/
def handle (s : Mon) (k : Key) : Mon :=
  match s.reqs.get? k with
  | none => s
  | some r => { s with reqs := s.reqs.set k { r with handled := true },
                       handledUn := if k ∈ s.handledUn then s.handledUn else s.handledUn ++ [k] }

/-- plenum/server/monitor.py:412-423, `check_unordered`; the answer is what the handlers get. -/
def checkUnordered (c : Cfg) (t : Nat) (s : Mon) : Option (Mon × List Key) :=
  match lates c t s.reqs with
  | none => none
  | some ks => some (ks.foldl handle s, ks)

/-! ## The verdicts -/

/-- plenum/server/monitor.py:579-592, `getThroughput`. -/
def getThr (c : Cfg) (t : Nat) (s : Mon) (i : Inst) : Option Rat :=
  match s.insts.get? i with
  | none => none
  | some r => r.meas.get c t

/-- The throughputs of the other instances which can be measured. -/
def otherThrs (c : Cfg) (t : Nat) (s : Mon) (i : Inst) : List Rat :=
  (s.insts.keys.filter (· ≠ i)).filterMap (getThr c t s)

/-- plenum/server/monitor.py:594-607, `getInstanceMetrics`, the first number. -/
def otherNum (s : Mon) (i : Inst) : Nat := ((s.insts.filter fun e => e.1 ≠ i).map fun e => e.2.num.1).sum

/-- plenum/server/monitor.py:543-577, `getThroughputs`. An average of at most one request per instance is `totalReqs ≤ count`. -/
def getThroughputs (c : Cfg) (t : Nat) (s : Mon) (i : Inst) : Option Rat × Option Rat :=
  let a := getThr c t s i
  let l := otherThrs c t s i
  let b := if s.insts.length > 1 then
      if l.isEmpty then none else some (if i = 0 then medianLow l else median l)
    else none
  let early := decide (a = some 0) && decide ((s.insts.get? i).map Rec.num = some (0, 0)) && decide (otherNum s i ≤ s.insts.length)
  (if early then none else a, b)

/-- plenum/server/monitor.py:456-466, `instance_throughput_ratio`. -/
def ratio (c : Cfg) (t : Nat) (s : Mon) (i : Inst) : Option Rat :=
  match getThroughputs c t s i with
  | (some a, some b) => if b = 0 then none else some (a / b)
  | _ => none

/-- plenum/server/monitor.py:475-492, `is_instance_throughput_too_low`; that the throughput cannot be measured counts as no. -/
def tooLow (c : Cfg) (t : Nat) (s : Mon) (i : Inst) : Bool :=
  match ratio c t s i with
  | none => false
  | some r => decide (r < c.delta)

/-- plenum/server/monitor.py:624-630, `getLatency`. -/
def getLat (c : Cfg) (s : Mon) (i : Inst) : Option Rat :=
  match s.insts.get? i with
  | none => none
  | some r => r.lat.get c

/-- plenum/server/monitor.py:609-622, `getLatencies`: those of other instances which are measured and are not zero. -/
def otherLats (c : Cfg) (s : Mon) : List Rat :=
  (s.insts.keys.filter (· ≠ 0)).filterMap fun j => (getLat c s j).filter (· ≠ 0)

/-- plenum/server/monitor.py:514-541, `isMasterAvgReqLatencyTooHigh`, `is_instance_avg_req_latency_too_high`. -/
def latHigh (c : Cfg) (s : Mon) : Bool :=
  match getLat c s 0 with
  | none => false
  | some a =>
    let l := otherLats c s
    if a = 0 || l.isEmpty || medianHigh l = 0 then false else !decide (a - medianHigh l < c.omega)

/-- plenum/server/monitor.py:425-439, `isMasterDegraded`. -/
def masterDegraded (c : Cfg) (t : Nat) (s : Mon) : Bool := s.insts.has 0 && (tooLow c t s 0 || latHigh c s)

/-- plenum/server/monitor.py:441-454, `areBackupsDegraded`. -/
def backupsDegraded (c : Cfg) (t : Nat) (s : Mon) : List Inst := (s.insts.keys.filter (· ≠ 0)).filter (tooLow c t s)

/-! ## Histories -/

/-- What happens to a monitor. `dropped`: the node drops a request as too old. -/
inductive Ev where
  | add (t : Nat) (i : Inst)
  | remove (i : Inst)
  | reset (t : Nat)
  | came (t : Nat) (k : Key)
  | ordered (t : Nat) (i : Inst) (ks : List Key) (known : Key → Bool)
  | check (t : Nat)
  | dropped (k : Key)

/-- One event; the answer of `check_unordered`. `none`: an exception. -/
def step (c : Cfg) (s : Mon) : Ev → Option (Mon × List Key)
  | .add t i => some (addInstance t i s, [])
  | .remove i => (removeInstance i s).map fun s => (s, [])
  | .reset t => some (reset t s, [])
  | .came t k => some (came t k s, [])
  | .ordered t i ks known => (ordered c known t i ks s).map fun x => (x.1, [])
  | .check t => checkUnordered c t s
  | .dropped k => some (drop s k, [])

/-- The monitor after events, and all reports of late requests. -/
def run (c : Cfg) (s : Mon) : List Ev → Option (Mon × List Key)
  | [] => some (s, [])
  | e :: es =>
    match step c s e with
    | none => none
    | some x =>
      match run c x.1 es with
      | none => none
      | some y => some (y.1, x.2 ++ y.2)

/-! ## What happened to an instance -/

/-- A request that an instance has ordered and that was counted: when, how long after it came, and whether the node still had it. -/
structure Entry where
  time : Nat
  dur : Nat
  known : Bool
deriving DecidableEq, Repr

/-- The requests of a batch which are counted. Not in the code: for the statements. -/
def batchLog (known : Key → Bool) (t : Nat) (i : Inst) : Mon → List Key → List Entry
  | _, [] => []
  | s, k :: ks =>
    match s.reqs.get? k with
    | none => batchLog known t i s ks
    | some r => ⟨t, t - r.since, known k⟩ :: batchLog known t i (trackOrder i k r s) ks

/-- The same for an event. -/
def evLog (s : Mon) (i : Inst) : Ev → List Entry
  | .ordered t j ks known => if j = i then batchLog known t i s ks else []
  | _ => []

/-- The same for events. -/
def log (c : Cfg) (i : Inst) : Mon → List Ev → List Entry
  | _, [] => []
  | s, e :: es =>
    match step c s e with
    | none => []
    | some x => evLog s i e ++ log c i x.1 es

/-- The times at which an instance ordered requests. -/
def times (c : Cfg) (i : Inst) (s : Mon) (es : List Ev) : List Nat := (log c i s es).map Entry.time

/-- The event does not start to measure the instance anew, or end to. -/
def Ev.quiet (i : Inst) : Ev → Bool
  | .add _ j => decide (j ≠ i)
  | .remove j => decide (j ≠ i)
  | .reset _ => false
  | _ => true

/-- The time of an event, when it matters. -/
def Ev.time : Ev → List Nat
  | .add t _ => [t]
  | .remove _ => []
  | .reset t => [t]
  | .came t _ => [t]
  | .ordered t _ _ _ => [t]
  | .check t => [t]
  | .dropped _ => []

/-- plenum/config.py:134-162, with ticks of a second. -/
def conf : Cfg := { window := 15, minCnt := 16, delta := 1 / 10, omega := 20, minLat := 20, freq := 60 }

end Verif.Monitor
