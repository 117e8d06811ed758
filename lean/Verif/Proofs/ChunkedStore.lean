import Verif.Model.ChunkedStore
import Verif.Proofs.KvStore
/-!
# Chunk arithmetic
-/
namespace Verif.Chunked
open Verif.Kv (Sorted Lawful sorted_ext)
variable {V : Type}

/-- Order of numbers as a comparator. -/
def natCmp : Kv.Cmp Nat := fun a b => (a : Int) - b

theorem lawful_nat : Lawful natCmp (fun _ => True) := by
  constructor <;> (intros; simp only [natCmp] at *; omega)

/-- Numbered from `s` on. -/
abbrev numbered (s : Nat) (l : List V) : List (Nat × V) := lineIter none none s l

theorem mem_lineIter (a b : Option Nat) (s : Nat) (l : List V) (i : Nat) (v : V) :
    (i, v) ∈ lineIter a b s l ↔ (s ≤ i ∧ l[i - s]? = some v) ∧ (∀ x, a = some x → x ≤ i) ∧ (∀ y, b = some y → i ≤ y) := by
  induction l generalizing s with
  | nil => simp [lineIter]
  | cons w r ih =>
    have hi : (s ≤ i ∧ (w :: r)[i - s]? = some v) ↔ (i = s ∧ w = v) ∨ (s + 1 ≤ i ∧ r[i - (s + 1)]? = some v) := by
      constructor
      · rintro ⟨h1, h2⟩
        by_cases hs : i = s
        · subst hs; simp at h2; exact .inl ⟨rfl, h2⟩
        · refine .inr ⟨by omega, ?_⟩
          rw [show i - s = (i - (s + 1)) + 1 by omega, List.getElem?_cons_succ] at h2
          exact h2
      · rintro (⟨rfl, rfl⟩ | ⟨h1, h2⟩)
        · simp
        · refine ⟨by omega, ?_⟩
          rw [show i - s = (i - (s + 1)) + 1 by omega, List.getElem?_cons_succ]
          exact h2
    rw [hi]
    unfold lineIter
    split
    · next hs =>
      cases b with
      | none => simp at hs
      | some y =>
        simp only [Option.any_some, decide_eq_true_eq] at hs
        constructor
        · intro h; cases h
        · rintro ⟨h1, -, h3⟩
          have := h3 y rfl
          rcases h1 with ⟨rfl, -⟩ | ⟨h1, -⟩ <;> omega
    · next hs =>
      have hb : ∀ y, b = some y → s ≤ y := by
        rintro y rfl
        simp only [Option.any_some, decide_eq_true_eq] at hs
        omega
      split
      · next ha =>
        have ha : ∀ x, a = some x → x ≤ s := by
          rintro x rfl
          simpa using ha
        rw [List.mem_cons, ih]
        constructor
        · rintro (h | ⟨h1, h2, h3⟩)
          · cases h; exact ⟨.inl ⟨rfl, rfl⟩, ha, hb⟩
          · exact ⟨.inr h1, h2, h3⟩
        · rintro ⟨⟨rfl, rfl⟩ | h1, h2, h3⟩
          · exact .inl rfl
          · exact .inr ⟨h1, h2, h3⟩
      · next ha =>
        obtain ⟨x, rfl, hx⟩ : ∃ x, a = some x ∧ s < x := by
          cases a with
          | none => simp at ha
          | some x => exact ⟨x, rfl, by simpa using ha⟩
        rw [ih]
        constructor
        · rintro ⟨h1, h2, h3⟩; exact ⟨.inr h1, h2, h3⟩
        · rintro ⟨⟨rfl, rfl⟩ | h1, h2, h3⟩
          · have := h2 x rfl; omega
          · exact ⟨h1, h2, h3⟩

theorem sorted_lineIter (a b : Option Nat) (s : Nat) (l : List V) : Sorted natCmp (fun _ => True) (lineIter a b s l) := by
  refine ⟨fun _ _ => trivial, ?_⟩
  induction l generalizing s with
  | nil => exact List.Pairwise.nil
  | cons w r ih =>
    unfold lineIter
    split
    · exact List.Pairwise.nil
    · split
      · refine List.pairwise_cons.2 ⟨fun e he => ?_, ih _⟩
        have := ((mem_lineIter a b (s + 1) r e.1 e.2).1 he).1.1
        simp only [natCmp]; omega
      · exact ih _

/-- The records of a range. -/
def between (vals : List V) (a b : Nat) : List (Nat × V) := (numbered 1 vals).filter (fun e => a ≤ e.1 ∧ e.1 ≤ b)

theorem mem_between (vals : List V) (a b i : Nat) (v : V) :
    (i, v) ∈ between vals a b ↔ (1 ≤ i ∧ vals[i - 1]? = some v) ∧ a ≤ i ∧ i ≤ b := by
  unfold between
  rw [List.mem_filter, mem_lineIter]
  simp

theorem sorted_between (vals : List V) (a b : Nat) : Sorted natCmp (fun _ => True) (between vals a b) :=
  Kv.sorted_filter (sorted_lineIter none none 1 vals) _

/-- Where a position lies. -/
theorem location {c k : Nat} (hc : 0 < c) (hk : 1 ≤ k) :
    getKeyLocation c k = ((k - 1) / c * c + 1, (k - 1) % c + 1) := by
  unfold getKeyLocation
  rw [if_neg (by omega)]
  have h1 := Nat.div_add_mod (k - 1) c
  have h2 := Nat.mod_lt (k - 1) hc
  rw [Nat.mul_comm] at h1
  simp only [firstChunkIndex]
  by_cases hr : (k - 1) % c + 1 = c
  · have h3 : k % c = 0 := by
      have : k = ((k - 1) / c + 1) * c := by rw [Nat.add_mul]; omega
      rw [this]; simp
    rw [h3]
    simp only [ne_eq, not_true, if_false]
    rw [Prod.mk.injEq]
    constructor <;> omega
  · have h3 : k % c = (k - 1) % c + 1 := by
      have : k = (k - 1) % c + 1 + (k - 1) / c * c := by omega
      conv => lhs; rw [this]
      rw [Nat.add_mul_mod_self_right, Nat.mod_eq_of_lt (by omega)]
    rw [h3]
    simp only [ne_eq, Nat.add_one_ne_zero, not_false_eq_true, if_true]
    rw [Prod.mk.injEq]
    constructor <;> omega

/-- The records of chunk `j`. -/
def chunk (c : Nat) (vals : List V) (j : Nat) : List V := (vals.drop (j * c)).take c

/-- The directory holding some records. -/
def layout (c : Nat) (vals : List V) : Dict Nat (List V) :=
  (List.range ((vals.length - 1) / c + 1)).map (fun j => (j * c + 1, chunk c vals j))

theorem set_append {d r : Dict Nat (List V)} {k : Nat} {v : List V} (h : ∀ e ∈ d, e.1 ≠ k) :
    Dict.set (d ++ r) k v = d ++ Dict.set r k v := by
  induction d with
  | nil => rfl
  | cons e d ih =>
    obtain ⟨k', v'⟩ := e
    have e : Dict.set ((k', v') :: (d ++ r)) k v = (k', v') :: Dict.set (d ++ r) k v := by
      rw [Dict.set, if_neg (h (k', v') List.mem_cons_self)]
    rw [List.cons_append, e, ih (fun e he => h e (List.mem_cons_of_mem _ he))]
    rfl

theorem key_inj {c i j : Nat} (hc : 0 < c) (h : i * c + 1 = j * c + 1) : i = j :=
  Nat.eq_of_mul_eq_mul_right hc (by omega)

theorem get?_map_range {c : Nat} (hc : 0 < c) (f : Nat → List V) (m i : Nat) :
    Dict.get? ((List.range m).map (fun j => (j * c + 1, f j))) (i * c + 1) = if i < m then some (f i) else none := by
  induction m with
  | zero => simp
  | succ m ih =>
    have happ : ∀ (d r : Dict Nat (List V)) k, Dict.get? (d ++ r) k = (Dict.get? d k).or (Dict.get? r k) := by
      intro d r k
      induction d with
      | nil => simp
      | cons e d ih =>
        rw [List.cons_append, Dict.get?_cons, Dict.get?_cons, ih]
        split <;> simp
    rw [List.range_succ, List.map_append, happ, ih]
    simp only [List.map_cons, List.map_nil, Dict.get?_cons, Dict.get?_nil]
    by_cases h1 : i < m
    · have h2 : i < m + 1 := by omega
      rw [if_pos h1, if_pos h2]; rfl
    · rw [if_neg h1]
      by_cases h2 : i = m
      · subst h2; simp
      · have h3 : ¬ i < m + 1 := by omega
        rw [if_neg (fun h => h2 (key_inj hc h).symm), if_neg h3]; rfl

theorem lines_layout {c : Nat} (hc : 0 < c) (vals : List V) (j : Nat) :
    lines (layout c vals) (j * c + 1) = chunk c vals j := by
  unfold lines layout
  rw [get?_map_range hc]
  split
  · rfl
  · next h =>
    unfold chunk
    have h1 := Nat.div_add_mod (vals.length - 1) c
    have h2 := Nat.mod_lt (vals.length - 1) hc
    have h3 : ((vals.length - 1) / c + 1) * c ≤ j * c := Nat.mul_le_mul_right c (by omega)
    rw [Nat.add_mul] at h3
    rw [Nat.mul_comm] at h1
    rw [List.drop_eq_nil_of_le (by omega)]
    simp

theorem lines_open (files : Dict Nat (List V)) (i k : Nat) : lines (openChunk files i) k = lines files k := by
  unfold openChunk
  split
  · rfl
  · next h =>
    unfold lines
    rw [Dict.get?_set]
    split
    · next e =>
      subst e
      have : files.get? i = none := (Dict.has_false_iff files i).1 (by simpa using h)
      simp [this]
    · rfl

theorem open_layout {c : Nat} (hc : 0 < c) (vals : List V) {j : Nat} (hj : j ≤ (vals.length - 1) / c) :
    openChunk (layout c vals) (j * c + 1) = layout c vals := by
  unfold openChunk
  rw [if_pos]
  rw [Dict.has_iff]
  exact ⟨chunk c vals j, by unfold layout; rw [get?_map_range hc, if_pos (by omega)]⟩

theorem keys_layout (c : Nat) (vals : List V) :
    (layout c vals).keys = (List.range ((vals.length - 1) / c + 1)).map (fun j => j * c + 1) := by
  simp [layout, Dict.keys]

theorem sort_map {c : Nat} (s m : Nat) :
    ((List.range' s m).map (fun j => j * c + 1)).foldr insertSorted [] = (List.range' s m).map (fun j => j * c + 1) := by
  induction m generalizing s with
  | zero => rfl
  | succ m ih =>
    rw [List.range'_succ, List.map_cons, List.foldr_cons, ih]
    cases m with
    | zero => rfl
    | succ m =>
      rw [List.range'_succ, List.map_cons]
      unfold insertSorted
      rw [if_pos]
      have : s * c ≤ (s + 1) * c := Nat.mul_le_mul_right c (by omega)
      omega

theorem list_layout (c : Nat) (vals : List V) :
    listChunks (layout c vals) = (List.range ((vals.length - 1) / c + 1)).map (fun j => j * c + 1) := by
  unfold listChunks
  rw [keys_layout, List.range_eq_range', sort_map]

theorem last_layout (c : Nat) (vals : List V) :
    (listChunks (layout c vals)).getLast? = some ((vals.length - 1) / c * c + 1) := by
  rw [list_layout, List.range_succ, List.map_append, List.getLast?_append]
  simp

/-- The store holds `vals`, in chunks of `c`. -/
structure Holds (c : Nat) (vals : List V) (s : Store V) : Prop where
  pos : 0 < c
  cs : s.chunkSize = c
  files : s.files = layout c vals
  cur : s.currentIndex = (vals.length - 1) / c * c + 1
  num : s.itemNum = vals.length - (vals.length - 1) / c * c + 1

theorem chunk_length {c : Nat} (hc : 0 < c) (vals : List V) :
    (chunk c vals ((vals.length - 1) / c)).length = vals.length - (vals.length - 1) / c * c := by
  unfold chunk
  rw [List.length_take, List.length_drop]
  have h1 := Nat.div_add_mod (vals.length - 1) c
  have h2 := Nat.mod_lt (vals.length - 1) hc
  rw [Nat.mul_comm] at h1
  omega

theorem holds_open {c : Nat} (hc : 0 < c) (vals : List V) : Holds c vals (openStore c (layout c vals)) := by
  have h1 : findLatestChunk (layout c vals) = (vals.length - 1) / c * c + 1 := by
    unfold findLatestChunk; rw [last_layout]; rfl
  unfold openStore useChunk
  rw [h1]
  refine ⟨hc, rfl, open_layout hc vals (Nat.le_refl _), rfl, ?_⟩
  show (lines (openChunk _ _) _).length + 1 = _
  rw [lines_open, lines_layout hc, chunk_length hc]

theorem holds_new {c : Nat} (hc : 0 < c) : Holds c ([] : List V) (openStore c []) := by
  refine ⟨hc, rfl, ?_, ?_, ?_⟩
  · have h : (List.nil : List V).length = 0 := rfl
    simp [openStore, useChunk, findLatestChunk, listChunks, Dict.keys, firstChunkIndex, openChunk, Dict.has, Dict.set,
      layout, chunk]
  · simp [openStore, useChunk, findLatestChunk, listChunks, Dict.keys, firstChunkIndex]
  · simp [openStore, useChunk, findLatestChunk, listChunks, Dict.keys, firstChunkIndex, openChunk, Dict.has, Dict.set,
      lines, Dict.get?]

theorem chunk_append_old {c : Nat} (vals : List V) (v : V) {j : Nat} (hj : j * c + c ≤ vals.length) :
    chunk c (vals ++ [v]) j = chunk c vals j := by
  unfold chunk
  rw [List.drop_append_of_le_length (by omega), List.take_append_of_le_length (by rw [List.length_drop]; omega)]

theorem chunk_append_new {c : Nat} (vals : List V) (v : V) {j : Nat} (h1 : j * c ≤ vals.length)
    (h2 : vals.length < j * c + c) : chunk c (vals ++ [v]) j = chunk c vals j ++ [v] := by
  unfold chunk
  rw [List.drop_append_of_le_length h1, List.take_of_length_le (by simp; omega), List.take_of_length_le (by simp; omega)]

theorem layout_snoc {c : Nat} (vals : List V) (m : Nat) (hm : (vals.length - 1) / c = m) :
    layout c vals = (List.range m).map (fun j => (j * c + 1, chunk c vals j)) ++ [(m * c + 1, chunk c vals m)] := by
  unfold layout
  rw [hm, List.range_succ, List.map_append]
  rfl

theorem holds_put {c : Nat} {vals : List V} {s : Store V} (h : Holds c vals s) (v : V) : Holds c (vals ++ [v]) (put s v) := by
  have hc := h.pos
  have h1 := Nat.div_add_mod (vals.length - 1) c
  have h2 := Nat.mod_lt (vals.length - 1) hc
  rw [Nat.mul_comm] at h1
  generalize hm : (vals.length - 1) / c = m at *
  have hold : ∀ j, j < m → j * c + c ≤ vals.length := by
    intro j hj
    have : (j + 1) * c ≤ m * c := Nat.mul_le_mul_right c (by omega)
    rw [Nat.add_mul] at this
    omega
  have hne : ∀ M, ∀ e ∈ (List.range M).map (fun j => (j * c + 1, chunk c vals j)), e.1 ≠ M * c + 1 := by
    intro M e he hk
    obtain ⟨j, hj, rfl⟩ := List.mem_map.1 he
    have := key_inj hc hk
    have := List.mem_range.1 hj
    omega
  unfold put
  by_cases hf : s.itemNum > s.chunkSize
  · rw [if_pos hf]
    have hn : vals.length = (m + 1) * c := by
      rw [h.num, h.cs, hm] at hf
      rw [Nat.add_mul]; omega
    have e1 : s.currentIndex + s.chunkSize = (m + 1) * c + 1 := by rw [h.cur, h.cs, hm, Nat.add_mul]; omega
    have hm' : ((vals ++ [v]).length - 1) / c = m + 1 := by
      rw [List.length_append, List.length_singleton, Nat.add_sub_cancel, hn, Nat.mul_div_cancel _ hc]
    have e2 : openChunk s.files ((m + 1) * c + 1) =
        (List.range (m + 1)).map (fun j => (j * c + 1, chunk c vals j)) ++ [((m + 1) * c + 1, [])] := by
      unfold openChunk
      rw [h.files]
      have : Dict.has (layout c vals) ((m + 1) * c + 1) = false := by
        rw [Dict.has_false_iff]
        unfold layout
        rw [get?_map_range hc, if_neg (by omega)]
      rw [this]
      show Dict.set _ _ _ = _
      unfold layout
      rw [hm]
      have := set_append (r := []) (v := []) (hne (m + 1))
      rw [List.append_nil] at this
      rw [this]
      rfl
    have e3 : lines (openChunk s.files ((m + 1) * c + 1)) ((m + 1) * c + 1) = [] := by
      rw [lines_open, h.files, lines_layout hc]
      unfold chunk
      rw [List.drop_eq_nil_of_le (by omega)]
      simp
    refine ⟨hc, h.cs, ?_, ?_, ?_⟩
    · show Dict.set (openChunk s.files (s.currentIndex + s.chunkSize)) (s.currentIndex + s.chunkSize)
        (lines (openChunk s.files (s.currentIndex + s.chunkSize)) (s.currentIndex + s.chunkSize) ++ [v]) = _
      rw [e1, e3, e2, set_append (hne (m + 1)), layout_snoc (vals ++ [v]) (m + 1) hm']
      congr 1
      · apply List.map_congr_left
        intro j hj
        rw [chunk_append_old]
        have : (j + 1) * c ≤ (m + 1) * c := Nat.mul_le_mul_right c (by have := List.mem_range.1 hj; omega)
        rw [Nat.add_mul] at this
        omega
      · have : chunk c (vals ++ [v]) (m + 1) = [v] := by
          rw [chunk_append_new vals v (by omega) (by omega)]
          unfold chunk
          rw [List.drop_eq_nil_of_le (by omega)]
          simp
        rw [this]
        simp [Dict.set]
    · show s.currentIndex + s.chunkSize = _
      rw [e1, hm']
    · show (1 + 1 : Nat) = _
      rw [hm', List.length_append, List.length_singleton]
      omega
  · rw [if_neg hf]
    have hn : vals.length < m * c + c := by
      rw [h.num, h.cs, hm] at hf
      omega
    have hle : m * c ≤ vals.length := by omega
    have hm' : ((vals ++ [v]).length - 1) / c = m := by
      rw [List.length_append, List.length_singleton, Nat.add_sub_cancel]
      apply Nat.div_eq_of_lt_le
      · exact hle
      · rw [Nat.add_mul]; omega
    have ecur : s.currentIndex = m * c + 1 := by rw [h.cur, hm]
    refine ⟨hc, h.cs, ?_, ?_, ?_⟩
    · show Dict.set s.files s.currentIndex (lines s.files s.currentIndex ++ [v]) = _
      rw [ecur, h.files, lines_layout hc, layout_snoc vals m hm, set_append (hne m),
        layout_snoc (vals ++ [v]) m hm', chunk_append_new vals v hle hn]
      congr 1
      · apply List.map_congr_left
        intro j hj
        rw [chunk_append_old vals v (hold j (List.mem_range.1 hj))]
      · simp [Dict.set]
    · show s.currentIndex = _
      rw [ecur, hm']
    · show s.itemNum + 1 = _
      rw [h.num, hm, hm', List.length_append, List.length_singleton]
      omega

/-! ## Reads -/

theorem size_eq {c : Nat} {vals : List V} {s : Store V} (h : Holds c vals s) : size s = vals.length := by
  have hc := h.pos
  unfold size
  dsimp only
  rw [h.files, last_layout]
  show ((listChunks (layout c vals)).length - 1) * s.chunkSize + (lines (layout c vals) _).length = _
  rw [list_layout, lines_layout hc, chunk_length hc, h.cs]
  simp only [List.length_map, List.length_range, Nat.add_sub_cancel]
  have h1 := Nat.div_add_mod (vals.length - 1) c
  rw [Nat.mul_comm] at h1
  omega

theorem chunkGet_eq (l : List V) (k : Nat) (hk : 1 ≤ k) :
    chunkGet l k = match l[k - 1]? with | some v => .ok v | none => .error .key := by
  unfold chunkGet
  have hs : Sorted natCmp (fun _ => True) ((numbered 1 l).filter (fun e => e.1 = k)) :=
    Kv.sorted_filter (sorted_lineIter none none 1 l) _
  have hm : ∀ i v, (i, v) ∈ (numbered 1 l).filter (fun e => e.1 = k) ↔ (1 ≤ i ∧ l[i - 1]? = some v) ∧ i = k := by
    intro i v
    rw [List.mem_filter, mem_lineIter]
    simp
  have e : (numbered 1 l).filter (fun e => e.1 = k) = match l[k - 1]? with | some v => [(k, v)] | none => [] := by
    cases hv : l[k - 1]? with
    | some v =>
      refine sorted_ext lawful_nat hs ⟨fun _ _ => trivial, List.pairwise_singleton _ _⟩ ?_
      rintro ⟨i, w⟩
      rw [hm]
      simp only [List.mem_singleton, Prod.mk.injEq]
      constructor
      · rintro ⟨⟨-, h2⟩, rfl⟩; rw [hv] at h2; cases h2; exact ⟨rfl, rfl⟩
      · rintro ⟨rfl, rfl⟩; exact ⟨⟨hk, hv⟩, rfl⟩
    | none =>
      rw [List.eq_nil_iff_forall_not_mem]
      rintro ⟨i, w⟩ h
      obtain ⟨⟨-, h2⟩, rfl⟩ := (hm i w).1 h
      rw [hv] at h2; cases h2
  unfold numbered at e
  rw [e]
  cases l[k - 1]? <;> rfl

theorem chunk_getElem {c : Nat} (vals : List V) (j i : Nat) :
    (chunk c vals j)[i]? = if i < c then vals[j * c + i]? else none := by
  unfold chunk
  rw [List.getElem?_take]
  split
  · rw [List.getElem?_drop]
  · rfl

theorem get_eq {c : Nat} {vals : List V} {s : Store V} (h : Holds c vals s) {k : Nat} (hk : 1 ≤ k) :
    (get s k).1 = match vals[k - 1]? with | some v => .ok v | none => .error .key := by
  have hc := h.pos
  unfold get
  rw [h.cs, location hc hk, h.files]
  dsimp only
  rw [lines_open, lines_layout hc, chunkGet_eq _ _ (by omega), chunk_getElem]
  have h1 := Nat.div_add_mod (k - 1) c
  have h2 := Nat.mod_lt (k - 1) hc
  rw [Nat.mul_comm] at h1
  rw [Nat.add_sub_cancel, if_pos h2, h1]

theorem div_mono {c a b : Nat} (h : a ≤ b) : (a - 1) / c ≤ (b - 1) / c := Nat.div_le_div_right (by omega)

theorem get_store {c : Nat} {vals : List V} {s : Store V} (h : Holds c vals s) {k : Nat} (hk : k ≤ vals.length) :
    (get s k).2 = s := by
  have hc := h.pos
  have : openChunk s.files (getKeyLocation s.chunkSize k).1 = s.files := by
    rw [h.cs, h.files]
    by_cases h0 : k = 0
    · subst h0
      have := open_layout hc vals (Nat.zero_le ((vals.length - 1) / c))
      simpa [getKeyLocation] using this
    · rw [location hc (by omega)]
      exact open_layout hc vals (div_mono hk)
  unfold get
  dsimp only
  rw [this]

theorem zip_numbered (l : List V) (a n : Nat) (hn : l.length ≤ n) : (List.range' a n).zip l = numbered a l := by
  induction l generalizing a n with
  | nil => simp [numbered, lineIter]
  | cons v l ih =>
    obtain ⟨n, rfl⟩ : ∃ m, n = m + 1 := ⟨n - 1, by simp at hn; omega⟩
    rw [List.range'_succ, List.zip_cons_cons, ih _ _ (by simp at hn; omega)]
    simp [numbered, lineIter]

theorem lineIter_snd (l : List V) (s x y : Nat) (hx : s ≤ x) :
    (lineIter (some x) (some y) s l).map Prod.snd = (l.drop (x - s)).take (y + 1 - x) := by
  induction l generalizing s with
  | nil => simp [lineIter]
  | cons v l ih =>
    unfold lineIter
    by_cases h1 : s > y
    · rw [if_pos (by simpa using h1), show y + 1 - x = 0 by omega]; simp
    · rw [if_neg (by simpa using h1)]
      by_cases h2 : x ≤ s
      · have : s = x := by omega
        subst this
        rw [if_pos (by simp), Nat.sub_self, List.drop_zero, List.map_cons, show y + 1 - s = (y - s) + 1 by omega,
          List.take_succ_cons]
        congr 1
        -- the rest: all further lines are past the lower bound
        clear ih
        generalize hs : s + 1 = t
        have : ∀ (l : List V) t, s ≤ t → (lineIter (some s) (some y) t l).map Prod.snd = l.take (y + 1 - t) := by
          intro l
          induction l with
          | nil => intro t _; simp [lineIter]
          | cons w l ih =>
            intro t ht
            unfold lineIter
            by_cases h3 : t > y
            · rw [if_pos (by simpa using h3), show y + 1 - t = 0 by omega]; simp
            · rw [if_neg (by simpa using h3), if_pos (by simpa using ht), List.map_cons, ih (t + 1) (by omega),
                show y + 1 - t = (y + 1 - (t + 1)) + 1 by omega, List.take_succ_cons]
        rw [this l t (by omega)]
        congr 1
        omega
      · rw [if_neg (by simpa using h2), ih (s + 1) (by omega), show x - s = (x - (s + 1)) + 1 by omega, List.drop_succ_cons]

theorem between_numbered (vals : List V) (a b : Nat) (ha : 1 ≤ a) :
    numbered a ((vals.drop (a - 1)).take (b + 1 - a)) = between vals a b := by
  refine sorted_ext lawful_nat (sorted_lineIter _ _ _ _) (sorted_between vals a b) ?_
  rintro ⟨i, v⟩
  rw [mem_lineIter, mem_between, List.getElem?_take]
  constructor
  · rintro ⟨⟨h1, h2⟩, -⟩
    split at h2
    · rw [List.getElem?_drop, show a - 1 + (i - a) = i - 1 by omega] at h2
      exact ⟨⟨by omega, h2⟩, h1, by omega⟩
    · cases h2
  · rintro ⟨⟨h1, h2⟩, h3, h4⟩
    refine ⟨⟨h3, ?_⟩, by simp, by simp⟩
    rw [if_pos (by omega), List.getElem?_drop, show a - 1 + (i - a) = i - 1 by omega]
    exact h2

/-- The part of the loop from chunk `j` on. -/
theorem rangeLoop_spec {c : Nat} (hc : 0 < c) (vals : List V) {a b : Nat} (ha : 1 ≤ a) (hb : 1 ≤ b)
    (hab : (a - 1) / c < (b - 1) / c) (fuel j : Nat) (hj : (a - 1) / c ≤ j) (hfu : (b - 1) / c + 1 ≤ j + fuel)
    (files : Dict Nat (List V)) (hfi : ∀ j, lines files (j * c + 1) = chunk c vals j) :
    (rangeLoop c ((a - 1) / c * c + 1) ((a - 1) % c + 1) ((b - 1) / c * c + 1) ((b - 1) % c + 1) fuel (j * c + 1) files).1 =
      between vals (max a (j * c + 1)) b := by
  have a1 := Nat.div_add_mod (a - 1) c
  have a2 := Nat.mod_lt (a - 1) hc
  have b1 := Nat.div_add_mod (b - 1) c
  have b2 := Nat.mod_lt (b - 1) hc
  rw [Nat.mul_comm] at a1 b1
  generalize (a - 1) / c = ja at *
  generalize (b - 1) / c = jb at *
  generalize (a - 1) % c = ra at *
  generalize (b - 1) % c = rb at *
  have hjab : ja * c + c ≤ jb * c := by
    have : (ja + 1) * c ≤ jb * c := Nat.mul_le_mul_right c (by omega)
    rwa [Nat.add_mul, Nat.one_mul] at this
  have empty : ∀ x, b < x → between vals (max a x) b = [] := by
    intro x hx
    rw [List.eq_nil_iff_forall_not_mem]
    rintro ⟨i, v⟩ h
    have := (mem_between _ _ _ _ _).1 h
    omega
  induction fuel generalizing j files with
  | zero =>
    unfold rangeLoop
    rw [empty]
    have : (jb + 1) * c ≤ j * c := Nat.mul_le_mul_right c (by omega)
    rw [Nat.add_mul] at this
    omega
  | succ fuel ih =>
    unfold rangeLoop
    by_cases hle : j * c + 1 ≤ jb * c + 1
    · have hjle : j ≤ jb := by
        exact Nat.le_of_mul_le_mul_right (show j * c ≤ jb * c by omega) hc
      rw [if_pos hle]
      dsimp only
      have e1 : j * c + 1 + c = (j + 1) * c + 1 := by rw [Nat.add_mul]; omega
      rw [e1, ih (j + 1) _ (fun i => by rw [lines_open]; exact hfi i) (by omega) (by omega)]
      rw [lines_open, hfi]
      -- membership in this chunk's part
      have part : ∀ i v, (i, v) ∈ (if j * c + 1 = ja * c + 1 then lineIter (some (ra + 1)) none 1 (chunk c vals j)
            else if j * c + 1 = jb * c + 1 then lineIter none (some (rb + 1)) 1 (chunk c vals j)
            else lineIter (some 1) (some c) 1 (chunk c vals j)).map (fun e => (j * c + 1 + e.1 - 1, e.2)) ↔
          (1 ≤ i ∧ vals[i - 1]? = some v) ∧ a ≤ i ∧ i ≤ b ∧ j * c < i ∧ i ≤ j * c + c := by
        intro i v
        rw [List.mem_map]
        have hk : ∀ k, (chunk c vals j)[k - 1]? = some v → 1 ≤ k → k ≤ c ∧ vals[j * c + k - 1]? = some v := by
          intro k h1 h2
          rw [chunk_getElem] at h1
          split at h1
          · next h3 =>
            rw [show j * c + (k - 1) = j * c + k - 1 by omega] at h1
            exact ⟨by omega, h1⟩
          · cases h1
        have hk' : ∀ k, 1 ≤ k → k ≤ c → vals[j * c + k - 1]? = some v → (chunk c vals j)[k - 1]? = some v := by
          intro k h1 h2 h3
          rw [chunk_getElem, if_pos (by omega), show j * c + (k - 1) = j * c + k - 1 by omega]
          exact h3
        have back : (1 ≤ i ∧ vals[i - 1]? = some v) → j * c < i → i ≤ j * c + c →
            (chunk c vals j)[i - j * c - 1]? = some v := by
          intro h1 h2 h3
          apply hk' (i - j * c) (by omega) (by omega)
          rw [show j * c + (i - j * c) - 1 = i - 1 by omega]
          exact h1.2
        by_cases hA : j = ja
        · subst hA
          rw [if_pos rfl]
          constructor
          · rintro ⟨⟨k, w⟩, h1, h2⟩
            have h3 := (mem_lineIter _ _ _ _ _ _).1 h1
            simp only [Prod.mk.injEq] at h2
            obtain ⟨h2, rfl⟩ := h2
            have h4 := hk k h3.1.2 h3.1.1
            have h5 := h3.2.1 _ rfl
            rw [show j * c + k - 1 = i - 1 by omega] at h4
            exact ⟨⟨by omega, h4.2⟩, by omega, by omega, by omega, by omega⟩
          · rintro ⟨h1, h2, h3, h4, h5⟩
            refine ⟨(i - j * c, v), (mem_lineIter _ _ _ _ _ _).2 ⟨⟨by omega, back h1 h4 h5⟩, ?_, by simp⟩, ?_⟩
            · intro x hx; cases hx; omega
            · simp only [Prod.mk.injEq, and_true]; omega
        · have hjj : ja * c + c ≤ j * c := by
            have : (ja + 1) * c ≤ j * c := Nat.mul_le_mul_right c (by omega)
            rwa [Nat.add_mul, Nat.one_mul] at this
          rw [if_neg (fun h => hA (key_inj hc h))]
          by_cases hB : j = jb
          · subst hB
            rw [if_pos rfl]
            constructor
            · rintro ⟨⟨k, w⟩, h1, h2⟩
              have h3 := (mem_lineIter _ _ _ _ _ _).1 h1
              simp only [Prod.mk.injEq] at h2
              obtain ⟨h2, rfl⟩ := h2
              have h4 := hk k h3.1.2 h3.1.1
              have h5 := h3.2.2 _ rfl
              rw [show j * c + k - 1 = i - 1 by omega] at h4
              exact ⟨⟨by omega, h4.2⟩, by omega, by omega, by omega, by omega⟩
            · rintro ⟨h1, h2, h3, h4, h5⟩
              refine ⟨(i - j * c, v), (mem_lineIter _ _ _ _ _ _).2 ⟨⟨by omega, back h1 h4 h5⟩, by simp, ?_⟩, ?_⟩
              · intro x hx; cases hx; omega
              · simp only [Prod.mk.injEq, and_true]; omega
          · have hjb : j * c + c ≤ jb * c := by
              have : (j + 1) * c ≤ jb * c := Nat.mul_le_mul_right c (by omega)
              rwa [Nat.add_mul, Nat.one_mul] at this
            rw [if_neg (fun h => hB (key_inj hc h))]
            constructor
            · rintro ⟨⟨k, w⟩, h1, h2⟩
              have h3 := (mem_lineIter _ _ _ _ _ _).1 h1
              simp only [Prod.mk.injEq] at h2
              obtain ⟨h2, rfl⟩ := h2
              have h4 := hk k h3.1.2 h3.1.1
              rw [show j * c + k - 1 = i - 1 by omega] at h4
              exact ⟨⟨by omega, h4.2⟩, by omega, by omega, by omega, by omega⟩
            · rintro ⟨h1, h2, h3, h4, h5⟩
              refine ⟨(i - j * c, v), (mem_lineIter _ _ _ _ _ _).2 ⟨⟨by omega, back h1 h4 h5⟩, ?_, ?_⟩, ?_⟩
              · intro x hx; cases hx; omega
              · intro x hx; cases hx; omega
              · simp only [Prod.mk.injEq, and_true]; omega
      have psort : ∀ (x y : Option Nat), Sorted natCmp (fun _ => True)
          ((lineIter x y 1 (chunk c vals j)).map (fun e => (j * c + 1 + e.1 - 1, e.2))) := by
        intro x y
        refine ⟨fun _ _ => trivial, ?_⟩
        rw [List.pairwise_map]
        refine (sorted_lineIter x y 1 (chunk c vals j)).ord.imp ?_
        intro p q h
        simp only [natCmp] at *
        omega
      refine sorted_ext lawful_nat ⟨fun _ _ => trivial, ?_⟩ (sorted_between _ _ _) ?_
      · rw [List.pairwise_append]
        refine ⟨?_, (sorted_between _ _ _).ord, ?_⟩
        · split
          · exact (psort _ _).ord
          · split
            · exact (psort _ _).ord
            · exact (psort _ _).ord
        · rintro ⟨x, v⟩ hx ⟨y, w⟩ hy
          have h1 := (part x v).1 hx
          have h2 := (mem_between _ _ _ _ _).1 hy
          simp only [natCmp]
          omega
      · rintro ⟨i, v⟩
        rw [List.mem_append, part, mem_between, mem_between]
        have e2 : (j + 1) * c = j * c + c := by rw [Nat.add_mul]; omega
        constructor
        · rintro (⟨h1, h2⟩ | ⟨h1, h2⟩)
          · exact ⟨h1, by omega, by omega⟩
          · exact ⟨h1, by omega, by omega⟩
        · rintro ⟨h1, h2, h3⟩
          by_cases hi : i ≤ j * c + c
          · exact .inl ⟨h1, by omega, by omega, by omega, hi⟩
          · exact .inr ⟨h1, by omega, h3⟩
    · rw [if_neg hle, empty]
      have : jb < j := by
        apply Nat.lt_of_not_le
        intro h
        exact hle (by have := Nat.mul_le_mul_right c h; omega)
      have : (jb + 1) * c ≤ j * c := Nat.mul_le_mul_right c (by omega)
      rw [Nat.add_mul] at this
      omega

theorem rangeLoop_files {c : Nat} (hc : 0 < c) (vals : List V) (x y p q fuel j : Nat)
    (hq : q = (vals.length - 1) / c * c + 1 ∨ ∃ jb, q = jb * c + 1 ∧ jb ≤ (vals.length - 1) / c) :
    (rangeLoop c x p q y fuel (j * c + 1) (layout c vals)).2 = layout c vals := by
  obtain ⟨jb, rfl, hjb⟩ : ∃ jb, q = jb * c + 1 ∧ jb ≤ (vals.length - 1) / c := by
    rcases hq with rfl | h
    · exact ⟨_, rfl, Nat.le_refl _⟩
    · exact h
  induction fuel generalizing j with
  | zero => rfl
  | succ fuel ih =>
    unfold rangeLoop
    split
    · next hle =>
      have hjle : j ≤ jb := by
        exact Nat.le_of_mul_le_mul_right (show j * c ≤ jb * c by omega) hc
      dsimp only
      rw [open_layout hc vals (by omega), show j * c + 1 + c = (j + 1) * c + 1 by rw [Nat.add_mul]; omega]
      exact ih (j + 1) 
    · rfl

theorem getRangeBetween_eq {c : Nat} {vals : List V} {s : Store V} (h : Holds c vals s) {a b : Nat} (ha : 1 ≤ a)
    (hab : a ≤ b) : (getRangeBetween s a b).1 = .ok (between vals a b) := by
  have hc := h.pos
  have hb : 1 ≤ b := by omega
  unfold getRangeBetween
  rw [h.cs, location hc ha, location hc hb]
  dsimp only
  have a1 := Nat.div_add_mod (a - 1) c
  have a2 := Nat.mod_lt (a - 1) hc
  have b1 := Nat.div_add_mod (b - 1) c
  have b2 := Nat.mod_lt (b - 1) hc
  rw [Nat.mul_comm] at a1 b1
  have hd := div_mono (c := c) hab
  by_cases he : (a - 1) / c = (b - 1) / c
  · rw [← he] at b1
    rw [if_pos (by rw [he]), if_pos (by omega)]
    dsimp only
    congr 1
    rw [lines_open, h.files, lines_layout hc, lineIter_snd _ _ _ _ (by omega)]
    rw [zip_numbered _ _ _ (by rw [List.length_take]; omega), ← between_numbered vals a b ha]
    congr 1
    unfold chunk
    rw [List.drop_take, List.drop_drop, List.take_take, show (a - 1) / c * c + ((a - 1) % c + 1 - 1) = a - 1 by omega]
    congr 1
    omega
  · rw [if_neg (fun e => he (key_inj hc e))]
    dsimp only
    congr 1
    have hlt : (a - 1) / c < (b - 1) / c := by omega
    have hfu : (b - 1) / c ≤ (b - 1) / c * c := Nat.le_mul_of_pos_right _ hc
    have hfu' : (b - 1) / c + 1 ≤ (a - 1) / c + ((b - 1) / c * c + 1 + 1) :=
      Nat.le_trans (Nat.succ_le_succ (Nat.le_succ_of_le hfu)) (Nat.le_add_left _ _)
    rw [rangeLoop_spec hc vals ha hb hlt _ _ (Nat.le_refl _) hfu' s.files
      (fun j => by rw [h.files]; exact lines_layout hc vals j)]
    congr 1
    omega

theorem location_chunk {c k : Nat} (hc : 0 < c) : ∃ j, (getKeyLocation c k).1 = j * c + 1 ∧ j = (k - 1) / c := by
  by_cases h0 : k = 0
  · subst h0; exact ⟨0, by simp [getKeyLocation], by simp⟩
  · exact ⟨(k - 1) / c, by rw [location hc (by omega)], rfl⟩

theorem getRangeBetween_store {c : Nat} {vals : List V} {s : Store V} (h : Holds c vals s) {a b : Nat}
    (hb : b ≤ vals.length) : (getRangeBetween s a b).2 = s := by
  have hc := h.pos
  obtain ⟨ja, ea, -⟩ := location_chunk (k := a) hc
  obtain ⟨jb, eb, rfl⟩ := location_chunk (k := b) hc
  have hd := div_mono (c := c) hb
  unfold getRangeBetween
  rw [h.cs]
  dsimp only
  split
  · next he =>
    split
    · dsimp only
      rw [he, eb, h.files, open_layout hc vals hd, ← h.files, ← h.cs]
    · rfl
  · dsimp only
    rw [h.files, ea, rangeLoop_files hc vals _ _ _ _ _ _ (.inr ⟨_, eb, hd⟩), ← h.files, ← h.cs]

end Verif.Chunked
