import Verif.Model.Dict
/-!
# The metrics of a node

`ValueAccumulator`, the collector that keeps the metrics of a node in a key-value store, and reading them back by frames of
time. A sample is a rational number and sums are exact: the rounding of floats is left out, so is the rounding of a time that
is read back. Of the bytes that are stored only the fields are kept. The store is a list sorted by key; keys are compared as
the big-endian bytes are, by their number.
-/
namespace Verif.Metrics

abbrev Name := Nat
/-- A time in microseconds since 1970. -/
abbrev Time := Nat

/-- plenum/common/value_accumulator.py:22-34, `__init__`. -/
structure Acc where
  count : Nat
  sum : Rat
  sumsq : Rat
  min : Option Rat
  max : Option Rat
deriving DecidableEq, Repr

/-- plenum/common/value_accumulator.py:7-11, `_min_with_none`. -/
def minWithNone : Option Rat → Option Rat → Option Rat
  | some a, some b => some (if b < a then b else a)
  | some a, none => some a
  | none, b => b

/-- plenum/common/value_accumulator.py:14-18, `_max_with_none`. -/
def maxWithNone : Option Rat → Option Rat → Option Rat
  | some a, some b => some (if a < b then b else a)
  | some a, none => some a
  | none, b => b

/-- plenum/common/value_accumulator.py:22-34, `__init__`, without an argument. -/
def Acc.empty : Acc := { count := 0, sum := 0, sumsq := 0, min := none, max := none }

/-- plenum/common/value_accumulator.py:23-28, of `__init__`: one number is given. -/
def Acc.ofValue (v : Rat) : Acc := { count := 1, sum := v, sumsq := v * v, min := some v, max := some v }

/-- plenum/common/value_accumulator.py:29-34, of `__init__`: a list is given. -/
def Acc.ofList (vs : List Rat) : Acc :=
  { count := vs.length
    sum := vs.foldl (· + ·) 0
    sumsq := (vs.map (fun v => v * v)).foldl (· + ·) 0
    min := vs.foldl (fun m v => minWithNone m (some v)) none
    max := vs.foldl (fun m v => maxWithNone m (some v)) none }

/-- plenum/common/value_accumulator.py:36-41, `add`. -/
def Acc.add (a : Acc) (v : Rat) : Acc :=
  { count := a.count + 1
    sum := a.sum + v
    sumsq := a.sumsq + v * v
    min := minWithNone a.min (some v)
    max := maxWithNone a.max (some v) }

/-- plenum/common/value_accumulator.py:43-48, `merge`. -/
def Acc.merge (a b : Acc) : Acc :=
  { count := a.count + b.count
    sum := a.sum + b.sum
    sumsq := a.sumsq + b.sumsq
    min := minWithNone a.min b.min
    max := maxWithNone a.max b.max }

/-- What is stored of an accumulator: eight bytes with the sum alone, or all the fields. -/
inductive Packed where
  | one (sum : Rat)
  | all (sum : Rat) (count : Nat) (min max sumsq : Rat)
deriving DecidableEq, Repr

/-- `none` if packing raises: there is no least and no greatest. plenum/common/value_accumulator.py:50-53, `to_bytes`. -/
def Acc.toBytes (a : Acc) : Option Packed :=
  if a.count = 1 then some (.one a.sum)
  else
    match a.min, a.max with
    | some mn, some mx => some (.all a.sum a.count mn mx a.sumsq)
    | _, _ => none

/-- plenum/common/value_accumulator.py:55-62, `from_bytes`. -/
def fromBytes : Packed → Acc
  | .one v => Acc.ofValue v
  | .all s c mn mx sq => { count := c, sum := s, sumsq := sq, min := some mn, max := some mx }

/-- plenum/common/value_accumulator.py:97-99, `avg`. -/
def Acc.avg (a : Acc) : Option Rat := if a.count = 0 then none else some (a.sum / a.count)

/-- The square of the deviation, before it is cut off at 0. plenum/common/value_accumulator.py:101-106, `stddev`. -/
def Acc.variance (a : Acc) : Option Rat :=
  if a.count < 2 then none
  else
    match a.avg with
    | none => none
    | some m => some ((a.sumsq - a.count * (m * m)) / (a.count - 1))

/-- The range around the average; `std` is the deviation, whose root is not modelled. `none` if a division by zero raises.
plenum/common/value_accumulator.py:124-135, `_std_range`. -/
def Acc.stdRange (a : Acc) (std : Option Rat) : Option (Option Rat × Option Rat) :=
  match std with
  | none => some (a.avg, a.avg)
  | some s =>
    if s = 0 ∨ a.min = a.max then some (a.avg, a.avg)
    else
      match a.avg, a.min, a.max with
      | some m, some mn, some mx =>
        let s := if mx - mn < s then mx - mn else s
        if m - mn = 0 then none
        else
          let skew := (mx - m) / (m - mn)
          if 1 + skew = 0 then none
          else
            let inv := 1 / (1 + skew)
            some (some (m - s * inv), some (m + s * inv * skew))
      | _, _, _ => none

/-- plenum/common/metrics_collector.py:388-400, `encode_key`; the time is not before 1970. -/
def encodeKey (t : Time) (seq : Nat) : Nat :=
  ((t &&& (1 <<< 53 - 1)) <<< 11) ||| (seq &&& (1 <<< 11 - 1))

/-- plenum/common/metrics_collector.py:415, of `decode`. -/
def decodeTime (k : Nat) : Time := k >>> 11

/-- The store: what it holds for a key. -/
abbrev Store := List (Nat × Name × Packed)

/-- `put` of a store that is read in the order of the keys. plenum/common/metrics_collector.py:440, of `store_event`. -/
def putKey (k : Nat) (v : Name × Packed) : Store → Store
  | [] => [(k, v)]
  | e :: r => if k < e.1 then (k, v) :: e :: r else if k = e.1 then (k, v) :: r else e :: putKey k v r

/-- A collector and its store. plenum/common/metrics_collector.py:427-432, `__init__`. -/
structure Coll where
  accs : Dict Name Acc := []
  store : Store := []
  seq : Nat := 0
  closed : Bool := false
deriving DecidableEq, Repr

/-- plenum/common/metrics_collector.py:339-340, `add_event`; a name is new with an empty accumulator. -/
def Coll.add (c : Coll) (n : Name) (v : Rat) : Coll :=
  { c with accs := c.accs.set n (((c.accs.get? n).getD Acc.empty).add v) }

/-- At time `t`. Where packing would raise, nothing is changed.
plenum/common/metrics_collector.py:436-444, `store_event`. -/
def Coll.storeEvent (c : Coll) (t : Time) (n : Name) (a : Acc) : Coll :=
  if c.closed then c
  else
    match a.toBytes with
    | none => c
    | some p => { c with store := putKey (encodeKey t c.seq) (n, p) c.store, seq := (c.seq + 1) &&& (1 <<< 11 - 1) }

/-- The `i`-th metric is stored at `clock i`. plenum/common/metrics_collector.py:343-344, of `flush_accumulated`. -/
def Coll.storeAll (c : Coll) (clock : Nat → Time) (i : Nat) : List (Name × Acc) → Coll
  | [] => c
  | e :: r => Coll.storeAll (c.storeEvent (clock i) e.1 e.2) clock (i + 1) r

/-- plenum/common/metrics_collector.py:342-345, `flush_accumulated`. -/
def Coll.flush (c : Coll) (clock : Nat → Time) : Coll := { c.storeAll clock 0 c.accs with accs := [] }

/-- What happens to the metrics of a node. -/
inductive Ev where
  | add (n : Name) (v : Rat)
  | flush (clock : Nat → Time)
  | close
  /-- The node is started again, with the same store. -/
  | restart

/-- plenum/common/metrics_collector.py:427-444, `KvStoreMetricsCollector`. -/
def Coll.step (c : Coll) : Ev → Coll
  | .add n v => c.add n v
  | .flush clock => c.flush clock
  | .close => { c with closed := true }
  | .restart => { store := c.store }

def Coll.run (c : Coll) (es : List Ev) : Coll := es.foldl Coll.step c

/-- 2000-01-01 in microseconds since 1970. -/
def base : Time := 946684800000000

/-- The frame of a time; `step` in microseconds, the time is not before 2000.
plenum/common/metrics_stats.py:11-16, `trunc_ts`. -/
def truncTs (t : Time) (step : Nat) : Time :=
  (base + (t - base) / step * step + 500000) / 1000000 * 1000000

/-- plenum/common/metrics_stats.py:19-21, `MetricsStatsFrame`. -/
abbrev Frame := Dict Name Acc

/-- plenum/common/metrics_stats.py:29-30, `get`. -/
def Frame.get (f : Frame) (n : Name) : Acc := (Dict.get? f n).getD Acc.empty

/-- plenum/common/metrics_stats.py:23-27, `add`; eight bytes are read as a number.
plenum/common/metrics_collector.py:421-424, of `decode`. -/
def Frame.add (f : Frame) (n : Name) : Packed → Frame
  | .one v => Dict.set f n ((f.get n).add v)
  | .all s c mn mx sq => Dict.set f n ((f.get n).merge (fromBytes (.all s c mn mx sq)))

/-- plenum/common/metrics_stats.py:32-34, `merge`. -/
def Frame.merge (f g : Frame) : Frame :=
  g.foldl (fun f e => Dict.set f e.1 ((Frame.get f e.1).merge e.2)) f

/-- plenum/common/metrics_stats.py:87-100, `merge_all`. -/
def mergeAll (fs : List Frame) : Frame :=
  if h0 : fs.length = 0 then []
  else if h1 : fs.length = 1 then fs.headD []
  else
    Frame.merge (mergeAll (fs.take (fs.length / 2))) (mergeAll (fs.drop (fs.length / 2)))
termination_by fs.length
decreasing_by
  · simp only [List.length_take]; omega
  · simp only [List.length_drop]; omega

/-- plenum/common/metrics_stats.py:45-49, `MetricsStats`. -/
abbrev Stats := Dict Time Frame

/-- plenum/common/metrics_stats.py:56-57, `frame`. -/
def Stats.frame (s : Stats) (step : Nat) (t : Time) : Frame := (Dict.get? s (truncTs t step)).getD []

/-- plenum/common/metrics_stats.py:51-54, `add`. -/
def Stats.add (s : Stats) (step : Nat) (t : Time) (n : Name) (p : Packed) : Stats :=
  Dict.set s (truncTs t step) ((s.frame step t).add n p)

/-- The kept total is dropped at each change, so it is that of now. plenum/common/metrics_stats.py:74-77, `total`. -/
def Stats.total (s : Stats) : Frame := mergeAll (s.map Prod.snd)

/-- plenum/common/metrics_stats.py:109-115, of `load_metrics_from_kv_store`. -/
def loadFrom (known : Name → Bool) (maxTs : Option Time) (step : Nat) (res : Stats) : Store → Stats
  | [] => res
  | e :: r =>
    if known e.2.1 = false then loadFrom known maxTs step res r
    else if maxTs.any (fun m => decodeTime e.1 > m) then res
    else loadFrom known maxTs step (res.add step (decodeTime e.1) e.2.1 e.2.2) r

/-- plenum/common/metrics_stats.py:103-117, `load_metrics_from_kv_store`. -/
def load (known : Name → Bool) (minTs maxTs : Option Time) (step : Nat) (st : Store) : Stats :=
  loadFrom known maxTs step [] (st.filter (fun e => minTs.all (fun m => encodeKey m 0 ≤ e.1)))

end Verif.Metrics
