import Verif.Proofs.KvStore
import Verif.Spec.Merkle
/-!
# C39: roots by time; C57: ranges of stores; C67: ranges of ledgers
-/
namespace Verif.Props
open Verif.Kv Verif.Spec

/-! ## C39 -/

theorem lastAt_snoc {R : Type} (l : List (Int × R)) (t : Int) (x : R) (u : Int) (r : R) :
    LastAt (l ++ [(t, x)]) u r ↔ (u = t ∧ r = x) ∨ (u ≠ t ∧ LastAt l u r) := by
  constructor
  · rintro ⟨p, q, e, hq⟩
    rcases List.eq_nil_or_concat q with rfl | ⟨q', y, rfl⟩
    · have := List.append_inj_right' e rfl
      simp only [List.cons.injEq, Prod.mk.injEq, and_true] at this
      exact .inl ⟨this.1.symm, this.2.symm⟩
    · rw [List.concat_eq_append, ← List.cons_append, ← List.append_assoc] at e
      have h1 := List.append_inj_right' e rfl
      have h2 := List.append_inj_left' e rfl
      simp only [List.cons.injEq, and_true] at h1
      refine .inr ⟨fun h => hq y (by simp) (by rw [← h1, h]), p, q', h2, fun e he => hq e (by simp [he])⟩
  · rintro (⟨rfl, rfl⟩ | ⟨hne, p, q, e, hq⟩)
    · exact ⟨l, [], rfl, by simp⟩
    · refine ⟨p, q ++ [(t, x)], by rw [e]; simp, fun e he => ?_⟩
      rcases List.mem_append.1 he with he | he
      · exact hq e he
      · rw [List.mem_singleton.1 he]; exact fun h => hne h.symm

theorem lastAt_mem {R : Type} {l : List (Int × R)} {u : Int} {r : R} (h : LastAt l u r) : (u, r) ∈ l := by
  obtain ⟨p, q, e, -⟩ := h
  rw [e]; simp

theorem lastAt_exists {R : Type} {l : List (Int × R)} {e : Int × R} (h : e ∈ l) : ∃ r, LastAt l e.1 r := by
  induction l using snoc_induction with
  | nil => cases h
  | snoc l x ih =>
    by_cases hx : e.1 = x.1
    · exact ⟨x.2, (lastAt_snoc l x.1 x.2 _ _).2 (.inl ⟨hx, rfl⟩)⟩
    · rcases List.mem_append.1 h with h | h
      · obtain ⟨r, hr⟩ := ih h
        exact ⟨r, (lastAt_snoc l x.1 x.2 _ _).2 (.inr ⟨hx, hr⟩)⟩
      · exact absurd (by rw [List.mem_singleton.1 h]) hx

/-- The records of one ledger: times and roots of its committed batches, oldest first. -/
def tsRecords {V : Type} (h : List (TsStore.Batch V)) (ledgerId : Nat) : List (Int × V) :=
  (h.filter (fun b => b.ledgerId = ledgerId)).map (fun b => (b.ppTime, b.stateRoot))

/-- The store of a ledger holds the last record for each of its times. -/
structure TsHolds {V : Type} (records : List (Int × V)) (db : IntDb V) : Prop where
  sorted : Sorted integerComparator IsNum db
  entry : ∀ u r, (Py.str u, r) ∈ db ↔ LastAt records u r

theorem backend_put {V : Type} (b : Backend) (k : List Char) (v : V) (db : IntDb V) :
    b.put k v db = put integerComparator k v db := by cases b <;> rfl

theorem backend_get {V : Type} (b : Backend) (k : List Char) (db : IntDb V) :
    b.get k db = get integerComparator k db := by cases b <;> rfl

theorem tsHolds_put {V : Type} {records : List (Int × V)} {db : IntDb V} (h : TsHolds records db) (b : Backend) (t : Int)
    (x : V) : TsHolds (records ++ [(t, x)]) (b.put (Py.str t) x db) := by
  rw [backend_put]
  refine ⟨sorted_put lawful_int h.sorted ⟨t, rfl⟩ x, fun u r => ?_⟩
  rw [mem_put lawful_int h.sorted ⟨t, rfl⟩, lastAt_snoc, h.entry]
  constructor
  · rintro (h1 | ⟨h1, h2⟩)
    · cases h1' : Prod.mk.inj h1; next a b => exact .inl ⟨str_inj a, b⟩
    · exact .inr ⟨fun h3 => h2 (by rw [h3]), h1⟩
  · rintro (⟨rfl, rfl⟩ | ⟨h1, h2⟩)
    · exact .inl rfl
    · exact .inr ⟨h2, fun h3 => h1 (str_inj h3)⟩

theorem tsRun_inv {V : Type} (b : Backend) (ledgers : List Nat) (h : List (TsStore.Batch V)) :
    (TsStore.run b ledgers h).backend = b ∧
    (∀ l ∈ ledgers, ∃ db, (TsStore.run b ledgers h).storages.get? l = some db ∧ TsHolds (tsRecords h l) db) ∧
    (∀ l, l ∉ ledgers → (TsStore.run b ledgers h).storages.get? l = none) := by
  induction h using snoc_induction with
  | nil =>
    refine ⟨rfl, ?_, ?_⟩
    · intro l hl
      refine ⟨[], ?_, Sorted.nil, fun (u : Int) (r : V) => ⟨fun h => (by cases h), fun h => (by cases lastAt_mem h)⟩⟩
      show Dict.get? (ledgers.map (fun l => (l, ([] : IntDb V)))) l = _
      induction ledgers with
      | nil => cases hl
      | cons a s ih =>
        rw [List.map_cons, Dict.get?_cons]
        split
        · rfl
        · next hne => exact ih ((List.mem_cons.1 hl).resolve_left (fun h => hne h.symm))
    · intro l hl
      show Dict.get? (ledgers.map (fun l => (l, ([] : IntDb V)))) l = _
      induction ledgers with
      | nil => rfl
      | cons a s ih =>
        rw [List.map_cons, Dict.get?_cons, if_neg (fun h => hl (List.mem_cons.2 (.inl h.symm)))]
        exact ih (fun h => hl (List.mem_cons_of_mem _ h))
  | snoc h x ih =>
    obtain ⟨i1, i2, i3⟩ := ih
    have e : TsStore.run b ledgers (h ++ [x]) = (TsStore.run b ledgers h).commitBatch x := by
      simp [TsStore.run, List.foldl_append]
    have er : ∀ l, tsRecords (h ++ [x]) l =
        tsRecords h l ++ if x.ledgerId = l then [(x.ppTime, x.stateRoot)] else [] := by
      intro l
      unfold tsRecords
      rw [List.filter_append, List.map_append]
      congr 1
      by_cases hx : x.ledgerId = l <;> simp [hx]
    rw [e]
    unfold TsStore.commitBatch TsStore.set
    by_cases hx : x.ledgerId ∈ ledgers
    · obtain ⟨db, hd, hh⟩ := i2 x.ledgerId hx
      rw [hd]
      refine ⟨i1, ?_, ?_⟩
      · intro l hl
        rw [er]
        simp only [Dict.get?_set]
        split
        · next he =>
          subst he
          refine ⟨_, rfl, ?_⟩
          exact tsHolds_put hh _ _ _
        · obtain ⟨db', hd', hh'⟩ := i2 l hl
          exact ⟨db', hd', by simpa using hh'⟩
      · intro l hl
        simp only [Dict.get?_set]
        rw [if_neg (fun (h : x.ledgerId = l) => hl (h ▸ hx))]
        exact i3 l hl
    · rw [i3 _ hx]
      refine ⟨i1, ?_, i3⟩
      intro l hl
      obtain ⟨db', hd', hh'⟩ := i2 l hl
      rw [er, if_neg (fun (h : x.ledgerId = l) => hx (h ▸ hl)), List.append_nil]
      exact ⟨db', hd', hh'⟩

/-- The loop over all entries ends at the greatest key not after the one asked for. -/
theorem tsScan_spec {V : Type} {db : IntDb V} (h : Sorted integerComparator IsNum db) (t : Int) (prev : Option V) :
    (∃ u v, Leveldb.scan t prev db = some v ∧ (Py.str u, v) ∈ db ∧ u ≤ t ∧ ∀ m w, (Py.str m, w) ∈ db → m ≤ t → m ≤ u) ∨
    (Leveldb.scan t prev db = prev ∧ ∀ m w, (Py.str m, w) ∈ db → t < m) := by
  induction db generalizing prev with
  | nil => exact .inr ⟨rfl, by simp⟩
  | cons x r ih =>
    obtain ⟨k, v⟩ := x
    obtain ⟨n, rfl⟩ := h.head
    unfold Leveldb.scan
    rw [Py.int_str]
    have hm : ∀ m w, (Py.str m, w) ∈ r → n < m := fun m w he => (cmp_lt n m).1 (h.lt he)
    by_cases hc : n > t
    · rw [if_pos (by simpa using hc)]
      refine .inr ⟨rfl, fun m w he => ?_⟩
      rcases List.mem_cons.1 he with he | he
      · cases Prod.mk.inj he with
        | intro a _ => have := str_inj a; omega
      · have := hm m w he; omega
    · rw [if_neg (by simpa using hc)]
      rcases ih h.tail (some v) with ⟨u, w, h1, h2, h3, h4⟩ | ⟨h1, h2⟩
      · refine .inl ⟨u, w, h1, List.mem_cons_of_mem _ h2, h3, fun m w' he hmt => ?_⟩
        rcases List.mem_cons.1 he with he | he
        · cases Prod.mk.inj he with
          | intro a _ => have := str_inj a; have := hm u w h2; omega
        · exact h4 m w' he hmt
      · refine .inl ⟨n, v, h1, List.mem_cons_self, by omega, fun m w he hmt => ?_⟩
        rcases List.mem_cons.1 he with he | he
        · cases Prod.mk.inj he with
          | intro a _ => have := str_inj a; omega
        · have := h2 m w he; omega

theorem backend_floor {V : Type} {records : List (Int × V)} {db : IntDb V} (h : TsHolds records db) (b : Backend) (t : Int) :
    InForce records t (b.getEqualOrPrev (Py.str t) db) := by
  have key : ∀ u v, (Py.str u, v) ∈ db → u ≤ t → (∀ m w, (Py.str m, w) ∈ db → m ≤ t → m ≤ u) →
      InForce records t (some v) := by
    intro u v h1 h2 h3
    refine ⟨u, (h.entry u v).1 h1, h2, fun e he het => ?_⟩
    obtain ⟨r, hr⟩ := lastAt_exists he
    exact h3 e.1 r ((h.entry _ _).2 hr) het
  have none' : (∀ m w, (Py.str m, w) ∈ db → t < m) → InForce records t none := by
    intro h1 e he
    obtain ⟨r, hr⟩ := lastAt_exists he
    exact h1 e.1 r ((h.entry _ _).2 hr)
  cases b with
  | leveldb =>
    show InForce records t (Leveldb.getEqualOrPrev (Py.str t) db)
    unfold Leveldb.getEqualOrPrev
    rw [Py.int_str]
    dsimp only
    cases hg : Leveldb.get integerComparator (Py.str t) db with
    | some v =>
      exact key t v ((get_iff lawful_int h.sorted ⟨t, rfl⟩ v).1 hg) (by omega) (fun m w _ hm => hm)
    | none =>
      dsimp only
      have e : Leveldb.iterator integerComparator none none db = db := rfl
      rw [e]
      rcases tsScan_spec h.sorted t none with ⟨u, v, h1, h2, h3, h4⟩ | ⟨h1, h2⟩
      · rw [h1]; exact key u v h2 h3 h4
      · rw [h1]; exact none' h2
  | rocksdb =>
    show InForce records t ((seekForPrev integerComparator (Py.str t) db).head?.map Prod.snd)
    have := seekForPrev_spec lawful_int h.sorted (k := Py.str t) ⟨t, rfl⟩
    revert this
    cases (seekForPrev integerComparator (Py.str t) db).head? with
    | none =>
      intro this
      exact none' (fun m w hm => (cmp_lt t m).1 (this _ hm))
    | some x =>
      rintro ⟨h1, h2, h3⟩
      obtain ⟨k, v⟩ := x
      obtain ⟨u, rfl⟩ := h.sorted.keys _ h1
      refine key u v h1 ?_ ?_
      · have : ¬ t < u := fun h => h2 ((cmp_lt t u).2 h); omega
      · intro m w hm hmt
        have : ¬ u < m := fun h => h3 _ hm (fun h => by have := (cmp_lt t m).1 h; omega) ((cmp_lt u m).2 h)
        omega

/-- **C39.** Whichever database is behind, and whatever batches were committed: looking up a time for a ledger
that has a store gives the root recorded last for the greatest recorded time not after it, and nothing when there
is none. -/
theorem ts_lookup {V : Type} (b : Backend) (ledgers : List Nat) (h : List (TsStore.Batch V)) (ledgerId : Nat)
    (hl : ledgerId ∈ ledgers) (t : Int) :
    InForce (tsRecords h ledgerId) t ((TsStore.run b ledgers h).getEqualOrPrev t ledgerId) := by
  obtain ⟨i1, i2, -⟩ := tsRun_inv b ledgers h
  obtain ⟨db, hd, hh⟩ := i2 ledgerId hl
  unfold TsStore.getEqualOrPrev
  rw [hd, i1]
  exact backend_floor hh b t

/-- What is in force is determined. -/
theorem inForce_unique {R : Type} {l : List (Int × R)} {t : Int} {a b : Option R} (ha : InForce l t a)
    (hb : InForce l t b) : a = b := by
  cases a with
  | none =>
    cases b with
    | none => rfl
    | some r =>
      obtain ⟨u, h1, h2, -⟩ := hb
      have h3 : t < u := ha _ (lastAt_mem h1)
      exact absurd h3 (by omega)
  | some r =>
    obtain ⟨u, h1, h2, h3⟩ := ha
    cases b with
    | none =>
      have h4 : t < u := hb _ (lastAt_mem h1)
      exact absurd h4 (by omega)
    | some r' =>
      obtain ⟨u', h1', h2', h3'⟩ := hb
      have e1 : u' ≤ u := h3 _ (lastAt_mem h1') h2'
      have e2 : u ≤ u' := h3' _ (lastAt_mem h1) h2
      have e : u = u' := by omega
      subst e
      obtain ⟨p, q, e, hq⟩ := h1
      obtain ⟨p', q', e', hq'⟩ := h1'
      rw [e] at e'
      clear e h3 h3'
      induction p generalizing p' with
      | nil =>
        cases p' with
        | nil => cases e'; rfl
        | cons x s =>
          simp only [List.nil_append, List.cons_append, List.cons.injEq] at e'
          exact absurd rfl (hq (u, r') (by rw [e'.2]; simp))
      | cons x s ih =>
        cases p' with
        | nil =>
          simp only [List.nil_append, List.cons_append, List.cons.injEq] at e'
          exact absurd rfl (hq' (u, r) (by rw [← e'.2]; simp))
        | cons y s' =>
          simp only [List.cons_append, List.cons.injEq] at e'
          exact ih s' e'.2

/-- **C39.** Asking for an exact time gives the root recorded last for it, and fails if there is none. -/
theorem ts_exact {V : Type} (b : Backend) (ledgers : List Nat) (h : List (TsStore.Batch V)) (ledgerId : Nat)
    (hl : ledgerId ∈ ledgers) (t : Int) :
    match (TsStore.run b ledgers h).get t ledgerId with
    | some (some r) => LastAt (tsRecords h ledgerId) t r
    | some none => False
    | none => ∀ e ∈ tsRecords h ledgerId, e.1 ≠ t := by
  obtain ⟨i1, i2, -⟩ := tsRun_inv b ledgers h
  obtain ⟨db, hd, hh⟩ := i2 ledgerId hl
  unfold TsStore.get
  rw [hd, i1]
  dsimp only
  rw [backend_get]
  cases hg : get integerComparator (Py.str t) db with
  | some v => exact (hh.entry t v).1 ((get_iff lawful_int hh.sorted ⟨t, rfl⟩ v).1 hg)
  | none =>
    intro e he h3
    obtain ⟨r, hr⟩ := lastAt_exists he
    exact (get_none lawful_int hh.sorted ⟨t, rfl⟩).1 hg _ ((hh.entry _ _).2 hr) (by rw [h3])

theorem seekToLast_head {K V : Type} (db : Db K V) : (seekToLast db).head? = db.getLast? := by
  induction db with
  | nil => rfl
  | cons x r ih =>
    cases r with
    | nil => rfl
    | cons y s => exact ih.trans (by simp [List.getLast?_cons_cons])

/-- **C39.** The last key, from which a new primary takes the time not to go behind, is the greatest recorded time. -/
theorem ts_last_key {V : Type} (b : Backend) (ledgers : List Nat) (h : List (TsStore.Batch V)) (ledgerId : Nat)
    (hl : ledgerId ∈ ledgers) :
    match (TsStore.run b ledgers h).getLastKey ledgerId with
    | some k => ∃ u r, k = Py.str u ∧ (u, r) ∈ tsRecords h ledgerId ∧ ∀ e ∈ tsRecords h ledgerId, e.1 ≤ u
    | none => tsRecords h ledgerId = [] := by
  obtain ⟨i1, i2, -⟩ := tsRun_inv b ledgers h
  obtain ⟨db, hd, hh⟩ := i2 ledgerId hl
  unfold TsStore.getLastKey
  rw [hd, i1]
  dsimp only
  have e : b.getLastKey db = db.getLast?.map Prod.fst := by
    cases b with
    | leveldb =>
      show (List.map Prod.fst db).getLast? = _
      rw [List.getLast?_map]
    | rocksdb =>
      show (seekToLast db).head?.map Prod.fst = _
      rw [seekToLast_head]
  rw [e]
  rcases List.eq_nil_or_concat db with rfl | ⟨s, x, rfl⟩
  · show tsRecords h ledgerId = []
    rw [List.eq_nil_iff_forall_not_mem]
    intro a ha
    obtain ⟨r, hr⟩ := lastAt_exists ha
    cases (hh.entry _ _).2 hr
  · rw [List.concat_eq_append, List.getLast?_append]
    show ∃ u r, x.1 = _ ∧ _
    rw [List.concat_eq_append] at hh
    obtain ⟨k, v⟩ := x
    obtain ⟨u, rfl⟩ := hh.sorted.keys (k, v) (by simp)
    refine ⟨u, v, rfl, lastAt_mem ((hh.entry u v).1 (by simp)), fun e he => ?_⟩
    obtain ⟨r, hr⟩ := lastAt_exists he
    rcases List.mem_append.1 ((hh.entry _ _).2 hr) with h1 | h1
    · have := (List.pairwise_append.1 hh.sorted.ord).2.2 _ h1 _ (List.mem_singleton.2 rfl)
      have := (cmp_lt _ _).1 this
      omega
    · have := str_inj (Prod.mk.inj (List.mem_singleton.1 h1)).1
      omega

/-- Ledgers without a store answer nothing. -/
theorem ts_unknown_ledger {V : Type} (b : Backend) (ledgers : List Nat) (h : List (TsStore.Batch V)) (ledgerId : Nat)
    (hl : ledgerId ∉ ledgers) (t : Int) :
    (TsStore.run b ledgers h).getEqualOrPrev t ledgerId = none := by
  unfold TsStore.getEqualOrPrev
  rw [(tsRun_inv b ledgers h).2.2 ledgerId hl]

/-- Batches of two ledgers, out of order and twice at one time. -/
def sampleBatches : List (TsStore.Batch Nat) :=
  [⟨1, 100, 11⟩, ⟨2, 150, 21⟩, ⟨1, 90, 10⟩, ⟨1, 200, 12⟩, ⟨1, 200, 13⟩, ⟨9, 120, 99⟩]

example : (tsRecords sampleBatches 1).length = 4 := by decide
example : ([Backend.leveldb, .rocksdb].map fun b =>
    [89, 90, 99, 100, 150, 199, 200, 1000].map fun t => (TsStore.run b [1, 2] sampleBatches).getEqualOrPrev t 1)
    = List.replicate 2 [none, some 10, some 10, some 11, some 11, some 11, some 13, some 13] := by decide +kernel
example : (TsStore.run .leveldb [1, 2] sampleBatches).getLastKey 1 = some ['2', '0', '0'] := by decide +kernel
example : (TsStore.run .rocksdb [1, 2] sampleBatches).getEqualOrPrev 1000 9 = none := by decide +kernel

/-! ## C57 -/

/-- A store after a history of writes and removals. -/
def storeAfter {K V : Type} (cmp : Cmp K) (h : List (KvOp K V)) : Db K V :=
  h.foldl (fun db o => match o with
    | .put k v => Kv.put cmp k v db
    | .remove k => Kv.delete cmp k db) []

theorem storeAfter_spec {K V : Type} [DecidableEq K] {cmp : Cmp K} (L : Lawful cmp (fun _ => True)) (h : List (KvOp K V)) :
    Sorted cmp (fun _ => True) (storeAfter cmp h) ∧ ∀ k v, (k, v) ∈ storeAfter cmp h ↔ kvAfter h k = some v := by
  induction h using snoc_induction with
  | nil => exact ⟨Sorted.nil, fun k v => by simp [storeAfter, kvAfter]⟩
  | snoc h o ih =>
    obtain ⟨i1, i2⟩ := ih
    have e1 : kvAfter (h ++ [o]) = o.apply (kvAfter h) := by simp [kvAfter, List.foldl_append]
    cases o with
    | put k v =>
      have e : storeAfter cmp (h ++ [.put k v]) = put cmp k v (storeAfter cmp h) := by
        simp [storeAfter, List.foldl_append]
      rw [e, e1]
      refine ⟨sorted_put L i1 trivial v, fun j w => ?_⟩
      rw [mem_put L i1 trivial, i2]
      simp only [KvOp.apply]
      split
      · next hj => subst hj; simp [eq_comm]
      · next hj => simp [hj]
    | remove k =>
      have e : storeAfter cmp (h ++ [.remove k]) = delete cmp k (storeAfter cmp h) := by
        simp [storeAfter, List.foldl_append]
      rw [e, e1]
      refine ⟨sorted_delete L i1 trivial, fun j w => ?_⟩
      rw [mem_delete L i1 trivial, i2]
      simp only [KvOp.apply]
      split
      · next hj => subst hj; simp
      · next hj => simp [hj]

/-- The entries of the map `m` whose keys lie between the bounds, both included, in key order. -/
structure RangeOf {V : Type} (m : Bytes → Option V) (start stop : Option Bytes) (l : List (Bytes × V)) : Prop where
  exact : ∀ k v, (k, v) ∈ l ↔ m k = some v ∧ (∀ a, start = some a → a ≤ k) ∧ (∀ b, stop = some b → k ≤ b)
  ordered : l.Pairwise (fun x y => x.1 < y.1)

theorem rangeOf_iff {V : Type} {h : List (KvOp Bytes V)} {start stop : Option Bytes} {l : Db Bytes V}
    (hr : IsRange bytewise (fun _ => True) start stop (storeAfter bytewise h) l) : RangeOf (kvAfter h) start stop l := by
  obtain ⟨h1, h2⟩ := hr
  refine ⟨fun k v => ?_, h1.ord.imp (fun h => (bytewise_lt _ _).1 h)⟩
  rw [h2, (storeAfter_spec lawful_bytes h).2]
  simp only [Within, bytewise_lt, List.not_lt]

/-- **C57.** On LevelDB, iterating between two bounds, present or not, yields exactly the stored keys between
them, in order. -/
theorem leveldb_range {V : Type} (h : List (KvOp Bytes V)) (start stop : Option Bytes) :
    RangeOf (kvAfter h) start stop (Leveldb.iterator bytewise start stop (storeAfter bytewise h)) :=
  rangeOf_iff (rangeIter_spec lawful_bytes (storeAfter_spec lawful_bytes h).1 start stop (fun _ _ => trivial)
    (fun _ _ => trivial))

theorem wrapping_eq {V : Type} {l : Db Bytes V} (hs : Sorted bytewise (fun _ => True) l) {b : Bytes} {v : V}
    (hb : (b, v) ∈ l) : Rocksdb.wrapping b l = l.takeWhile (fun e => bytewise e.1 b ≤ 0) := by
  induction l with
  | nil => cases hb
  | cons x r ih =>
    unfold Rocksdb.wrapping
    split
    · next hx =>
      rw [List.takeWhile_cons_of_pos (by simp [hx, (bytewise_zero b b).2])]
      congr 1
      cases r with
      | nil => rfl
      | cons y s =>
        rw [List.takeWhile_cons_of_neg]
        have := hs.lt (x := y) List.mem_cons_self
        rw [hx] at this
        have := (lawful_bytes.flip trivial trivial).1 this
        simp only [decide_eq_true_eq]
        omega
    · next hx =>
      have hb' : (b, v) ∈ r := (List.mem_cons.1 hb).resolve_left (fun e => hx (by rw [← e]))
      have := hs.lt hb'
      rw [List.takeWhile_cons_of_pos (by simp only [decide_eq_true_eq]; exact Int.le_of_lt this), ih hs.tail hb']

/-- **C57.** On RocksDB this holds when the upper bound, if one is given, is itself a stored key not before the
lower one. Without that, see `rocksdb_range_overruns`. -/
theorem rocksdb_range_partial {V : Type} (h : List (KvOp Bytes V)) (start stop : Option Bytes)
    (hb : ∀ b, stop = some b → b ≠ [] ∧ kvAfter h b ≠ none ∧ ∀ a, start = some a → a ≤ b) :
    RangeOf (kvAfter h) start stop (Rocksdb.iterator bytewise start stop (storeAfter bytewise h)) := by
  obtain ⟨h1, h2⟩ := storeAfter_spec lawful_bytes h
  have hst := startAt_spec lawful_bytes h1 (Rocksdb.given start) (fun _ _ => trivial)
  have hw : ∀ k stop, Within bytewise (Rocksdb.given start) stop k ↔ Within bytewise start stop k := by
    intro k stop
    cases start with
    | none => rfl
    | some a =>
      unfold Rocksdb.given
      dsimp only
      split
      · next ha =>
        subst ha
        simp only [Within, bytewise_lt]
        simp
      · rfl
  have hst' : IsRange bytewise (fun _ => True) start none (storeAfter bytewise h)
      (startAt bytewise (Rocksdb.given start) (storeAfter bytewise h)) :=
    ⟨hst.1, fun e => by rw [hst.2, hw]⟩
  cases stop with
  | none => exact rangeOf_iff hst'
  | some b =>
    obtain ⟨b1, b2, b3⟩ := hb b rfl
    obtain ⟨v, hv⟩ := Option.ne_none_iff_exists'.1 b2
    have hmem : (b, v) ∈ startAt bytewise (Rocksdb.given start) (storeAfter bytewise h) := by
      rw [hst'.2, h2]
      refine ⟨hv, fun a ha => ?_, fun _ h => by cases h⟩
      rw [bytewise_lt, List.not_lt]
      exact b3 a ha
    have e : Rocksdb.iterator bytewise start (some b) (storeAfter bytewise h) =
        Rocksdb.wrapping b (startAt bytewise (Rocksdb.given start) (storeAfter bytewise h)) := by
      simp [Rocksdb.iterator, Rocksdb.given, b1]
    rw [e, wrapping_eq hst.1 hmem]
    refine rangeOf_iff ⟨?_, fun x => ?_⟩
    · rw [takeWhile_eq lawful_bytes hst.1 trivial]; exact sorted_filter hst.1 _
    · rw [takeWhile_eq lawful_bytes hst.1 trivial, List.mem_filter, hst'.2]
      simp only [Within]
      constructor
      · rintro ⟨⟨h3, h4, -⟩, h5⟩
        exact ⟨h3, h4, fun b' hb' => by cases hb'; simpa using h5⟩
      · rintro ⟨h3, h4, h5⟩
        exact ⟨⟨h3, h4, fun b' hb' => by cases hb'⟩, by simpa using h5 b rfl⟩

/-- Three keys, one written twice, and one written and removed. -/
def sampleWrites : List (KvOp Bytes Nat) :=
  [.put [3] 30, .put [1] 10, .put [2] 99, .put [5] 50, .remove [2], .put [3] 31]

example : Leveldb.iterator bytewise (some [2]) (some [4]) (storeAfter bytewise sampleWrites) = [([3], 31)] := by decide
example : Rocksdb.iterator bytewise (some [2]) (some [3]) (storeAfter bytewise sampleWrites) = [([3], 31)] := by decide
example : (∀ b, some [3] = some b → b ≠ [] ∧ kvAfter sampleWrites b ≠ none ∧ ∀ a, some [2] = some a → a ≤ b) := by
  intro b h; cases h; exact ⟨by decide, by decide, by intro a ha; cases ha; decide⟩

/-- **C57 fails on RocksDB** when the upper bound is not a stored key: everything to the end of the store is
yielded. -/
theorem rocksdb_range_overruns : ∃ (h : List (KvOp Bytes Nat)) (start stop : Bytes),
    ¬ RangeOf (kvAfter h) (some start) (some stop)
      (Rocksdb.iterator bytewise (some start) (some stop) (storeAfter bytewise h)) := by
  refine ⟨sampleWrites, [2], [4], fun hr => ?_⟩
  have := (hr.exact [5] 50).1 (by decide)
  exact absurd (this.2.2 [4] rfl) (by decide)

/-- The store kept in memory leaves out the upper bound, and yields in the order of writing. -/
theorem memory_range_excludes_end : ∃ db : Dict (List Char) Nat,
    Memory.iterator (some 1) (some 3) db = [(['2'], 20), (['1'], 10)] ∧ db.get? ['3'] = some 30 :=
  ⟨[(['2'], 20), (['1'], 10), (['3'], 30)], by decide, by decide⟩

/-! ## C67 -/

/-- A transaction log after a history of writes at positions. -/
def logAfter {V : Type} (b : Backend) (h : List (Int × V)) : IntDb V :=
  h.foldl (fun db e => b.put (Py.str e.1) e.2 db) []

theorem logAfter_spec {V : Type} (b : Backend) (h : List (Int × V)) : TsHolds h (logAfter b h) := by
  induction h using snoc_induction with
  | nil => exact ⟨Sorted.nil, fun (u : Int) (r : V) => ⟨fun h => (by cases h), fun h => (by cases lastAt_mem h)⟩⟩
  | snoc h x ih =>
    have : logAfter b (h ++ [x]) = b.put (Py.str x.1) x.2 (logAfter b h) := by simp [logAfter, List.foldl_append]
    rw [this]
    exact tsHolds_put ih b x.1 x.2

theorem upTo_spec {V : Type} {l : IntDb V} (hs : Sorted integerComparator IsNum l) (to : Option Int) :
    (∀ n v, (n, v) ∈ upTo to l ↔ (Py.str n, v) ∈ l ∧ ∀ t, to = some t → n ≤ t) ∧
    (upTo to l).Pairwise (fun x y => x.1 < y.1) := by
  induction l with
  | nil => simp [upTo]
  | cons x r ih =>
    obtain ⟨k, v⟩ := x
    obtain ⟨m, rfl⟩ := hs.head
    obtain ⟨i1, i2⟩ := ih hs.tail
    have hlt : ∀ n w, (Py.str n, w) ∈ r → m < n := fun n w hn => (cmp_lt m n).1 (hs.lt hn)
    have hin : ∀ n w, ((n, w) = (m, v) ↔ (Py.str n, w) = (Py.str m, v)) := by
      intro n w
      constructor
      · rintro h; cases h; rfl
      · intro h
        have := Prod.mk.inj h
        rw [str_inj this.1, this.2]
    have keepGoing : (∀ t, to = some t → m ≤ t) →
        (∀ n w, (n, w) ∈ (m, v) :: upTo to r ↔ (Py.str n, w) ∈ (Py.str m, v) :: r ∧ ∀ t, to = some t → n ≤ t) ∧
        ((m, v) :: upTo to r).Pairwise (fun x y => x.1 < y.1) := by
      intro hm
      refine ⟨fun n w => ?_, List.pairwise_cons.2 ⟨fun e he => hlt _ _ ((i1 e.1 e.2).1 he).1, i2⟩⟩
      rw [List.mem_cons, i1, List.mem_cons, hin]
      constructor
      · rintro (h | ⟨h1, h2⟩)
        · refine ⟨.inl h, fun t ht => ?_⟩
          rw [(Prod.mk.inj ((hin n w).2 h)).1]; exact hm t ht
        · exact ⟨.inr h1, h2⟩
      · rintro ⟨h1 | h1, h2⟩
        · exact .inl h1
        · exact .inr ⟨h1, h2⟩
    unfold upTo
    rw [Py.int_str]
    cases to with
    | none => exact keepGoing (by simp)
    | some t =>
      dsimp only [Option.getD_some]
      split
      · next h => exact keepGoing (fun t' ht => by cases ht; exact h)
      · next h =>
        refine ⟨fun n w => ⟨fun hn => (by cases hn), ?_⟩, List.Pairwise.nil⟩
        rintro ⟨h1, h2⟩
        have := h2 t rfl
        rcases List.mem_cons.1 h1 with h1 | h1
        · have := str_inj (Prod.mk.inj h1).1; omega
        · have := hlt _ _ h1; omega

theorem upTo_wrapping {V : Type} {l : IntDb V} (hs : Sorted integerComparator IsNum l) (t : Int) :
    upTo (some t) (Rocksdb.wrapping (Py.str t) l) = upTo (some t) l := by
  induction l with
  | nil => rfl
  | cons x r ih =>
    unfold Rocksdb.wrapping
    split
    · next hx =>
      obtain ⟨k, v⟩ := x
      subst hx
      simp only [upTo, Py.int_str, Option.getD_some, Int.le_refl, if_true]
      have : upTo (some t) r = [] := by
        rw [List.eq_nil_iff_forall_not_mem]
        rintro ⟨n, w⟩ hn
        have := ((upTo_spec hs.tail (some t)).1 n w).1 hn
        have h1 := (cmp_lt t n).1 (hs.lt this.1)
        have h2 := this.2 t rfl
        omega
      rw [this]
    · next hx => simp only [upTo, ih hs.tail]

theorem upTo_takeWhile {V : Type} {l : IntDb V} (hs : Sorted integerComparator IsNum l) (t : Int) :
    upTo (some t) (l.takeWhile (fun e => integerComparator e.1 (Py.str t) ≤ 0)) = upTo (some t) l := by
  induction l with
  | nil => rfl
  | cons x r ih =>
    obtain ⟨k, v⟩ := x
    obtain ⟨m, rfl⟩ := hs.head
    by_cases h : m ≤ t
    · rw [List.takeWhile_cons_of_pos]
      · simp only [upTo, ih hs.tail]
      · simp only [cmp_str]
        split
        · simp
        · rw [if_neg (by omega)]; simp
    · rw [List.takeWhile_cons_of_neg]
      · simp [upTo, Py.int_str, h]
      · simp only [cmp_str]
        rw [if_neg (by omega), if_pos (by omega)]; simp

theorem str_ne_nil (n : Int) : Py.str n ≠ [] := by
  intro h
  have := Py.int_str n
  rw [h] at this
  simp [Py.int] at this

/-- **C67.** Whichever database is behind, reading a ledger's transactions from `frm` to `to`, either bound
possibly absent or out of range, yields exactly the transactions at those positions, in order. -/
theorem ledger_range {V : Type} (b : Backend) (h : List (Int × V)) (frm to : Option Int) :
    (∀ n v, (n, v) ∈ getAllTxn b frm to (logAfter b h) ↔
      LastAt h n v ∧ (∀ a, frm = some a → a ≤ n) ∧ (∀ t, to = some t → n ≤ t)) ∧
    (getAllTxn b frm to (logAfter b h)).Pairwise (fun x y => x.1 < y.1) := by
  have hh := logAfter_spec b h
  have hst := startAt_spec lawful_int hh.sorted (frm.map Py.str) (by
    intro a ha
    cases frm with
    | none => cases ha
    | some n => cases ha; exact ⟨n, rfl⟩)
  have e : getAllTxn b frm to (logAfter b h) =
      upTo to (startAt integerComparator (frm.map Py.str) (logAfter b h)) := by
    unfold getAllTxn
    cases b with
    | leveldb =>
      cases to with
      | none => rfl
      | some t => exact upTo_takeWhile hst.1 t
    | rocksdb =>
      have eg : ∀ o : Option Int, Rocksdb.given (o.map Py.str) = o.map Py.str := by
        intro o
        cases o with
        | none => rfl
        | some n => simp [Rocksdb.given, str_ne_nil]
      show upTo to (Rocksdb.iterator integerComparator (frm.map Py.str) (to.map Py.str) _) = _
      unfold Rocksdb.iterator
      rw [eg, eg]
      cases to with
      | none => rfl
      | some t => exact upTo_wrapping hst.1 t
  rw [e]
  obtain ⟨h1, h2⟩ := upTo_spec hst.1 to
  refine ⟨fun n v => ?_, h2⟩
  rw [h1, hst.2, hh.entry]
  have : Within integerComparator (frm.map Py.str) none (Py.str n) ↔ ∀ a, frm = some a → a ≤ n := by
    cases frm with
    | none => simp [Within]
    | some a =>
      have := cmp_lt n a
      simp only [Within, Option.map_some, Option.some.injEq, forall_eq', reduceCtorEq, false_implies, implies_true,
        and_true]
      omega
  rw [this, and_assoc]

example : ([Backend.leveldb, .rocksdb].map fun b =>
    getAllTxn b (some 2) (some 9) (logAfter b [(1, 'a'), (2, 'b'), (10, 'j'), (3, 'c')]))
    = List.replicate 2 [(2, 'b'), (3, 'c')] := by decide +kernel
example : getAllTxn .rocksdb (some 5) (some 2) (logAfter .rocksdb [(1, 'a'), (2, 'b'), (10, 'j'), (3, 'c')]) = [] := by
  decide +kernel

end Verif.Props
