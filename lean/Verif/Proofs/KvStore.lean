import Verif.Model.KvStore
import Verif.Spec.KvStore
import Verif.Props.PyInt
import Verif.Proofs.Count
/-!
# Sorted stores
-/
namespace Verif.Kv
open Verif.Spec

/-- The comparator is a total order on the keys of `P`. -/
structure Lawful {K : Type} (cmp : Cmp K) (P : K → Prop) : Prop where
  eq : ∀ {a b}, P a → P b → (cmp a b = 0 ↔ a = b)
  flip : ∀ {a b}, P a → P b → (cmp a b < 0 ↔ 0 < cmp b a)
  trans : ∀ {a b c}, P a → P b → P c → cmp a b < 0 → cmp b c < 0 → cmp a c < 0

/-- In order, with keys of `P`. -/
structure Sorted {K V : Type} (cmp : Cmp K) (P : K → Prop) (db : Db K V) : Prop where
  keys : ∀ e ∈ db, P e.1
  ord : db.Pairwise (fun x y => cmp x.1 y.1 < 0)

section
variable {K V : Type} {cmp : Cmp K} {P : K → Prop}

theorem Sorted.tail {e : K × V} {r : Db K V} (h : Sorted cmp P (e :: r)) : Sorted cmp P r :=
  ⟨fun x hx => h.keys x (List.mem_cons_of_mem _ hx), (List.pairwise_cons.1 h.ord).2⟩

theorem Sorted.head {e : K × V} {r : Db K V} (h : Sorted cmp P (e :: r)) : P e.1 := h.keys e List.mem_cons_self

theorem Sorted.lt {e : K × V} {r : Db K V} (h : Sorted cmp P (e :: r)) {x} (hx : x ∈ r) : cmp e.1 x.1 < 0 :=
  (List.pairwise_cons.1 h.ord).1 x hx

theorem Sorted.nil : Sorted cmp P ([] : Db K V) := ⟨by simp, List.Pairwise.nil⟩

variable (L : Lawful cmp P)
include L

theorem Lawful.not_lt_self {a : K} (h : P a) : ¬ cmp a a < 0 := by
  have := (L.eq h h).2 rfl
  omega

theorem Lawful.lt_or {a b : K} (ha : P a) (hb : P b) : cmp a b < 0 ∨ a = b ∨ cmp b a < 0 := by
  have h1 := L.flip hb ha
  by_cases h : cmp a b = 0
  · exact .inr (.inl ((L.eq ha hb).1 h))
  · by_cases h2 : cmp a b < 0
    · exact .inl h2
    · exact .inr (.inr (h1.2 (by omega)))

theorem Lawful.asymm {a b : K} (ha : P a) (hb : P b) (h : cmp a b < 0) : ¬ cmp b a < 0 := by
  have := (L.flip ha hb).1 h
  omega

theorem Lawful.ne {a b : K} (ha : P a) (h : cmp a b < 0) : a ≠ b := by
  rintro rfl; exact L.not_lt_self ha h

theorem mem_put {db : Db K V} (h : Sorted cmp P db) {k : K} (hk : P k) (v : V) (e : K × V) :
    e ∈ put cmp k v db ↔ e = (k, v) ∨ (e ∈ db ∧ e.1 ≠ k) := by
  induction db with
  | nil => simp [put]
  | cons x r ih =>
    have h0 := L.eq hk h.head
    unfold put
    split
    · next hc =>
      have hx := h0.1 hc
      constructor
      · intro he
        rcases List.mem_cons.1 he with he | he
        · exact .inl he
        · exact .inr ⟨List.mem_cons_of_mem _ he, fun h3 => L.ne h.head (h.lt he) (by rw [h3, hx])⟩
      · rintro (he | ⟨he, h3⟩)
        · rw [he]; exact List.mem_cons_self
        · rcases List.mem_cons.1 he with he | he
          · exact absurd (by rw [he, hx]) h3
          · exact List.mem_cons_of_mem _ he
    · next hc =>
      split
      · next hl =>
        constructor
        · intro he
          rcases List.mem_cons.1 he with he | he
          · exact .inl he
          · refine .inr ⟨he, fun h3 => ?_⟩
            rcases List.mem_cons.1 he with he | he
            · exact hc (h0.2 (by rw [← h3, he]))
            · have := L.trans hk h.head (h.keys e (List.mem_cons_of_mem _ he)) hl (h.lt he)
              rw [h3] at this
              exact L.not_lt_self hk this
        · rintro (he | ⟨he, -⟩)
          · rw [he]; exact List.mem_cons_self
          · exact List.mem_cons_of_mem _ he
      · next hl =>
        rw [List.mem_cons, ih h.tail, List.mem_cons]
        constructor
        · rintro (he | he | ⟨he, h3⟩)
          · exact .inr ⟨.inl he, fun h3 => hc (h0.2 (by rw [← h3, he]))⟩
          · exact .inl he
          · exact .inr ⟨.inr he, h3⟩
        · rintro (he | ⟨he | he, h3⟩)
          · exact .inr (.inl he)
          · exact .inl he
          · exact .inr (.inr ⟨he, h3⟩)

theorem sorted_put {db : Db K V} (h : Sorted cmp P db) {k : K} (hk : P k) (v : V) : Sorted cmp P (put cmp k v db) := by
  refine ⟨fun e he => ?_, ?_⟩
  · rcases (mem_put L h hk v e).1 he with he | ⟨he, -⟩
    · rw [he]; exact hk
    · exact h.keys e he
  · induction db with
    | nil => exact List.pairwise_singleton _ _
    | cons x r ih =>
      have h0 := L.eq hk h.head
      unfold put
      split
      · next hc =>
        have hx := h0.1 hc
        exact List.pairwise_cons.2 ⟨fun y hy => by rw [hx]; exact h.lt hy, h.tail.ord⟩
      · next hc =>
        split
        · next hl =>
          refine List.pairwise_cons.2 ⟨fun y hy => ?_, h.ord⟩
          rcases List.mem_cons.1 hy with hy | hy
          · rw [hy]; exact hl
          · exact L.trans hk h.head (h.tail.keys y hy) hl (h.lt hy)
        · next hl =>
          refine List.pairwise_cons.2 ⟨fun y hy => ?_, ih h.tail⟩
          rcases (mem_put L h.tail hk v y).1 hy with hy | ⟨hy, -⟩
          · rw [hy]
            rcases L.lt_or hk h.head with h1 | h1 | h1
            · exact absurd h1 hl
            · exact absurd (h0.2 h1) hc
            · exact h1
          · exact h.lt hy

theorem mem_delete {db : Db K V} (h : Sorted cmp P db) {k : K} (hk : P k) (e : K × V) :
    e ∈ delete cmp k db ↔ e ∈ db ∧ e.1 ≠ k := by
  induction db with
  | nil => simp [delete]
  | cons x r ih =>
    have h0 := L.eq hk h.head
    unfold delete
    split
    · next hc =>
      have hx := h0.1 hc
      constructor
      · intro he
        exact ⟨List.mem_cons_of_mem _ he, fun h3 => L.ne h.head (h.lt he) (by rw [h3, hx])⟩
      · rintro ⟨he, h3⟩
        rcases List.mem_cons.1 he with he | he
        · exact absurd (by rw [he, hx]) h3
        · exact he
    · next hc =>
      rw [List.mem_cons, ih h.tail, List.mem_cons]
      constructor
      · rintro (he | ⟨he, h3⟩)
        · exact ⟨.inl he, fun h3 => hc (h0.2 (by rw [← h3, he]))⟩
        · exact ⟨.inr he, h3⟩
      · rintro ⟨he | he, h3⟩
        · exact .inl he
        · exact .inr ⟨he, h3⟩

theorem sorted_delete {db : Db K V} (h : Sorted cmp P db) {k : K} (hk : P k) : Sorted cmp P (delete cmp k db) := by
  refine ⟨fun e he => h.keys e ((mem_delete L h hk e).1 he).1, ?_⟩
  induction db with
  | nil => exact List.Pairwise.nil
  | cons x r ih =>
    unfold delete
    split
    · exact h.tail.ord
    · exact List.pairwise_cons.2 ⟨fun y hy => h.lt ((mem_delete L h.tail hk y).1 hy).1, ih h.tail⟩

theorem get_iff {db : Db K V} (h : Sorted cmp P db) {k : K} (hk : P k) (v : V) :
    get cmp k db = some v ↔ (k, v) ∈ db := by
  induction db with
  | nil => simp [get]
  | cons x r ih =>
    have h0 := L.eq hk h.head
    unfold get
    split
    · next hc =>
      have hx := h0.1 hc
      constructor
      · intro e
        cases e
        rw [hx]
        exact List.mem_cons_self
      · intro he
        rcases List.mem_cons.1 he with he | he
        · rw [← he]
        · exact absurd hx.symm (L.ne h.head (h.lt he))
    · next hc =>
      rw [ih h.tail, List.mem_cons]
      exact ⟨.inr, fun he => he.resolve_left (fun he => hc (h0.2 (by rw [← he])))⟩

theorem get_none {db : Db K V} (h : Sorted cmp P db) {k : K} (hk : P k) :
    get cmp k db = none ↔ ∀ e ∈ db, e.1 ≠ k := by
  constructor
  · intro hn e he h3
    have := (get_iff L h hk e.2).2 (by rw [← h3]; exact he)
    rw [hn] at this; cases this
  · intro ha
    cases hg : get cmp k db with
    | none => rfl
    | some v => exact absurd rfl (ha _ ((get_iff L h hk v).1 hg))

/-- Seeking skips the keys before. -/
theorem seek_eq {db : Db K V} (h : Sorted cmp P db) {k : K} (hk : P k) :
    seek cmp k db = db.filter (fun e => ¬ cmp e.1 k < 0) := by
  induction db with
  | nil => rfl
  | cons x r ih =>
    unfold seek
    split
    · next hc => rw [ih h.tail, List.filter_cons_of_neg (by simpa using hc)]
    · next hc =>
      rw [List.filter_eq_self.2]
      intro e he
      rcases List.mem_cons.1 he with he | he
      · subst he; simpa using hc
      · simp only [decide_not, Bool.not_eq_eq_eq_not, Bool.not_true, decide_eq_false_iff_not]
        intro h3
        exact hc (L.trans h.head (h.tail.keys e he) hk (h.lt he) h3)

theorem takeWhile_eq {db : Db K V} (h : Sorted cmp P db) {k : K} (hk : P k) :
    db.takeWhile (fun e => cmp e.1 k ≤ 0) = db.filter (fun e => ¬ cmp k e.1 < 0) := by
  induction db with
  | nil => rfl
  | cons x r ih =>
    have h1 := L.flip hk h.head
    by_cases hc : cmp x.1 k ≤ 0
    · rw [List.takeWhile_cons_of_pos (by simpa using hc), ih h.tail, List.filter_cons_of_pos (by
        simp only [decide_not, Bool.not_eq_eq_eq_not, Bool.not_true, decide_eq_false_iff_not]; omega)]
    · rw [List.takeWhile_cons_of_neg (by simpa using hc)]
      symm
      rw [List.filter_eq_nil_iff]
      intro e he
      simp only [decide_not, Bool.not_eq_eq_eq_not, Bool.not_true, decide_eq_false_iff_not, Decidable.not_not]
      have h2 : cmp k x.1 < 0 := h1.2 (by omega)
      rcases List.mem_cons.1 he with he | he
      · rw [he]; exact h2
      · exact L.trans hk h.head (h.tail.keys e he) h2 (h.lt he)

omit L in
theorem sorted_filter {db : Db K V} (h : Sorted cmp P db) (p : K × V → Bool) : Sorted cmp P (db.filter p) :=
  ⟨fun e he => h.keys e (List.mem_filter.1 he).1, h.ord.filter p⟩

/-- A key is within bounds. -/
def Within (cmp : Cmp K) (start stop : Option K) (k : K) : Prop :=
  (∀ a, start = some a → ¬ cmp k a < 0) ∧ (∀ b, stop = some b → ¬ cmp b k < 0)

omit L in
/-- `l` is what lies within the bounds, in order. -/
def IsRange (cmp : Cmp K) (P : K → Prop) (start stop : Option K) (db l : Db K V) : Prop :=
  Sorted cmp P l ∧ ∀ e, e ∈ l ↔ e ∈ db ∧ Within cmp start stop e.1

theorem startAt_spec {db : Db K V} (h : Sorted cmp P db) (start : Option K) (hs : ∀ a, start = some a → P a) :
    IsRange cmp P start none db (startAt cmp start db) := by
  cases start with
  | none => exact ⟨h, fun e => by simp [startAt, Within]⟩
  | some a =>
    have ha := hs a rfl
    refine ⟨?_, fun e => ?_⟩
    · show Sorted cmp P (seek cmp a db)
      rw [seek_eq L h ha]; exact sorted_filter h _
    · show e ∈ seek cmp a db ↔ _
      rw [seek_eq L h ha, List.mem_filter]; simp [Within]

theorem rangeIter_spec {db : Db K V} (h : Sorted cmp P db) (start stop : Option K)
    (hs : ∀ a, start = some a → P a) (he : ∀ b, stop = some b → P b) :
    IsRange cmp P start stop db (rangeIter cmp start stop db) := by
  have h2 := startAt_spec L h start hs
  unfold rangeIter
  cases stop with
  | none => exact h2
  | some b =>
    have hb := he b rfl
    refine ⟨?_, fun e => ?_⟩
    · dsimp only; rw [takeWhile_eq L h2.1 hb]; exact sorted_filter h2.1 _
    · dsimp only
      rw [takeWhile_eq L h2.1 hb, List.mem_filter, h2.2 e]
      simp only [Within]
      constructor
      · rintro ⟨⟨h3, h4, -⟩, h5⟩
        exact ⟨h3, h4, fun b' hb' => by cases hb'; simpa using h5⟩
      · rintro ⟨h3, h4, h5⟩
        exact ⟨⟨h3, h4, fun b' hb' => by cases hb'⟩, by simpa using h5 b rfl⟩

/-- Two ranges of the same store are the same list. -/
theorem sorted_ext {a b : Db K V} (ha : Sorted cmp P a) (hb : Sorted cmp P b) (h : ∀ e, e ∈ a ↔ e ∈ b) : a = b := by
  induction a generalizing b with
  | nil =>
    cases b with
    | nil => rfl
    | cons y s => exact absurd ((h y).2 List.mem_cons_self) (by simp)
  | cons x r ih =>
    cases b with
    | nil => exact absurd ((h x).1 List.mem_cons_self) (by simp)
    | cons y s =>
      have hxy : x = y := by
        rcases List.mem_cons.1 ((h x).1 List.mem_cons_self) with h1 | h1
        · exact h1
        · rcases List.mem_cons.1 ((h y).2 List.mem_cons_self) with h2 | h2
          · exact h2.symm
          · exact absurd (ha.lt h2) (L.asymm hb.head ha.head (hb.lt h1))
      subst hxy
      rw [ih ha.tail hb.tail (fun e => ?_)]
      have h1 : e ∈ r → e ≠ x := fun he h3 => by
        have := ha.lt he; rw [h3] at this; exact L.not_lt_self ha.head this
      have h2 : e ∈ s → e ≠ x := fun he h3 => by
        have := hb.lt he; rw [h3] at this; exact L.not_lt_self ha.head this
      have h3 := h e
      simp only [List.mem_cons] at h3
      constructor
      · intro he; exact (h3.1 (.inr he)).resolve_left (h1 he)
      · intro he; exact (h3.2 (.inr he)).resolve_left (h2 he)

/-- The last entry not after a key. -/
def IsFloor (cmp : Cmp K) (db : Db K V) (k : K) : Option (K × V) → Prop
  | none => ∀ e ∈ db, cmp k e.1 < 0
  | some x => x ∈ db ∧ ¬ cmp k x.1 < 0 ∧ ∀ e ∈ db, ¬ cmp k e.1 < 0 → ¬ cmp x.1 e.1 < 0

theorem seekForPrev_spec {db : Db K V} (h : Sorted cmp P db) {k : K} (hk : P k) :
    IsFloor cmp db k (seekForPrev cmp k db).head? := by
  induction db with
  | nil => simp [seekForPrev, IsFloor]
  | cons x r ih =>
    have h1 := L.flip hk h.head
    have ih := ih h.tail
    unfold seekForPrev
    split
    · next hc =>
      intro e he
      have h2 : cmp k x.1 < 0 := h1.2 (by omega)
      rcases List.mem_cons.1 he with he | he
      · rw [he]; exact h2
      · exact L.trans hk h.head (h.tail.keys e he) h2 (h.lt he)
    · next hc =>
      have hx : ¬ cmp k x.1 < 0 := by omega
      revert ih
      cases seekForPrev cmp k r with
      | nil =>
        intro ih
        refine ⟨List.mem_cons_self, hx, fun e he h4 => ?_⟩
        rcases List.mem_cons.1 he with he | he
        · rw [he]; exact L.not_lt_self h.head
        · exact absurd (ih e he) h4
      | cons y s =>
        intro ih
        obtain ⟨i1, i2, i3⟩ := ih
        refine ⟨List.mem_cons_of_mem _ i1, i2, fun e he h4 => ?_⟩
        rcases List.mem_cons.1 he with he | he
        · rw [he]; exact L.asymm h.head (h.tail.keys y i1) (h.lt i1)
        · exact i3 e he h4

end

/-! ## Integer keys -/

/-- Keys the stores with integer keys hold. -/
def IsNum (k : List Char) : Prop := ∃ n, k = Py.str n

theorem str_inj {m n : Int} (h : Py.str m = Py.str n) : m = n := by
  have := congrArg Py.int h
  rw [Py.int_str, Py.int_str] at this
  cases this; rfl

theorem cmp_str (m n : Int) : integerComparator (Py.str m) (Py.str n) = if m = n then 0 else if m > n then 1 else -1 := by
  unfold integerComparator
  by_cases h : m = n
  · rw [if_pos (by rw [h]), if_pos h]
  · rw [if_neg (fun h2 => h (str_inj h2)), if_neg h, Py.int_str, Py.int_str]; rfl

theorem cmp_lt (m n : Int) : integerComparator (Py.str m) (Py.str n) < 0 ↔ m < n := by
  rw [cmp_str]
  split
  · omega
  · split <;> omega

theorem lawful_int : Lawful integerComparator IsNum := by
  constructor
  · rintro _ _ ⟨m, rfl⟩ ⟨n, rfl⟩
    rw [cmp_str]
    constructor
    · intro h
      split at h
      · next h2 => rw [h2]
      · split at h <;> omega
    · intro h; rw [if_pos (str_inj h)]
  · rintro _ _ ⟨m, rfl⟩ ⟨n, rfl⟩
    rw [cmp_lt, cmp_str]
    split
    · omega
    · split <;> omega
  · rintro _ _ _ ⟨m, rfl⟩ ⟨n, rfl⟩ ⟨o, rfl⟩
    simp only [cmp_lt]
    omega

/-! ## Bytes -/

theorem bytewise_zero : ∀ a b, bytewise a b = 0 ↔ a = b
  | [], [] => by simp [bytewise]
  | [], _ :: _ => by simp [bytewise]
  | _ :: _, [] => by simp [bytewise]
  | a :: s, b :: t => by
    unfold bytewise
    split
    · next h => rw [bytewise_zero s t]; simp [h]
    · next h => split <;> simp [h]

theorem bytewise_lt : ∀ a b, bytewise a b < 0 ↔ a < b
  | [], [] => by simp [bytewise]
  | [], _ :: _ => by simp [bytewise]
  | _ :: _, [] => by simp [bytewise]
  | a :: s, b :: t => by
    unfold bytewise
    rw [List.cons_lt_cons_iff]
    split
    · next h => rw [bytewise_lt s t]; simp [h]
    · next h => split <;> simp_all

theorem bytewise_pos : ∀ a b, 0 < bytewise a b ↔ b < a
  | [], [] => by simp [bytewise]
  | [], _ :: _ => by simp [bytewise]
  | _ :: _, [] => by simp [bytewise]
  | a :: s, b :: t => by
    unfold bytewise
    rw [List.cons_lt_cons_iff]
    split
    · next h => rw [bytewise_pos s t]; simp [h]
    · next h =>
      have h' : ¬ b = a := fun e => h e.symm
      split
      · next h2 =>
        have : ¬ b < a := by
          intro h3
          rw [UInt8.lt_iff_toNat_lt] at *
          omega
        simp [h', this]
      · next h2 =>
        have : b < a := by
          rw [UInt8.lt_iff_toNat_lt] at *
          have : a.toNat ≠ b.toNat := fun e => h (UInt8.toNat.inj e)
          omega
        simp [this]

theorem lawful_bytes : Lawful bytewise (fun _ => True) := by
  constructor
  · intro a b _ _; exact bytewise_zero a b
  · intro a b _ _; rw [bytewise_lt, bytewise_pos]
  · intro a b c _ _ _ h1 h2
    rw [bytewise_lt] at *
    exact List.lt_trans h1 h2

end Verif.Kv
