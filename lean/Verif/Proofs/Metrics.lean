import Verif.Spec.Metrics
/-! Lemmas about accumulators of metrics and about what is stored of them. -/
namespace Verif.Metrics
open Verif.Spec.Metrics

/-! ## Accumulators -/

theorem minWithNone_comm (a b : Option Rat) : minWithNone a b = minWithNone b a := by
  cases a <;> cases b <;> simp only [minWithNone]
  grind

theorem maxWithNone_comm (a b : Option Rat) : maxWithNone a b = maxWithNone b a := by
  cases a <;> cases b <;> simp only [maxWithNone]
  grind

theorem minWithNone_assoc (a b c : Option Rat) :
    minWithNone (minWithNone a b) c = minWithNone a (minWithNone b c) := by
  cases a <;> cases b <;> cases c <;> simp only [minWithNone]
  grind

theorem maxWithNone_assoc (a b c : Option Rat) :
    maxWithNone (maxWithNone a b) c = maxWithNone a (maxWithNone b c) := by
  cases a <;> cases b <;> cases c <;> simp only [maxWithNone]
  grind

theorem merge_comm (a b : Acc) : a.merge b = b.merge a := by
  simp only [Acc.merge, minWithNone_comm b.min, maxWithNone_comm b.max, Acc.mk.injEq, and_true]
  exact ⟨by omega, by grind, by grind⟩

theorem merge_assoc (a b c : Acc) : (a.merge b).merge c = a.merge (b.merge c) := by
  simp only [Acc.merge, minWithNone_assoc, maxWithNone_assoc, Acc.mk.injEq, and_true]
  exact ⟨by omega, by grind, by grind⟩

theorem empty_merge (a : Acc) : Acc.empty.merge a = a := by
  cases a
  simp only [Acc.merge, Acc.empty, minWithNone, maxWithNone, Acc.mk.injEq, and_true]
  exact ⟨by omega, by grind, by grind⟩

theorem merge_empty (a : Acc) : a.merge Acc.empty = a := by rw [merge_comm, empty_merge]

theorem add_eq_merge (a : Acc) (v : Rat) : a.add v = a.merge (Acc.ofValue v) := rfl

theorem sums_empty : Sums Acc.empty [] := ⟨rfl, rfl, rfl, rfl, rfl⟩

theorem sums_ofValue (v : Rat) : Sums (Acc.ofValue v) [v] :=
  ⟨rfl, by simp only [Acc.ofValue, List.sum_cons, List.sum_nil]; grind,
    by simp only [Acc.ofValue, List.map_cons, List.map_nil, List.sum_cons, List.sum_nil]; grind,
    ⟨by simp, by simp⟩, ⟨by simp, by simp⟩⟩

theorem isLeast_append {a b : Option Rat} {vs ws : List Rat} (ha : IsLeast a vs) (hb : IsLeast b ws) :
    IsLeast (minWithNone a b) (vs ++ ws) := by
  cases a <;> cases b <;> simp only [minWithNone, IsLeast, List.mem_append] at * <;> grind

theorem isGreatest_append {a b : Option Rat} {vs ws : List Rat} (ha : IsGreatest a vs) (hb : IsGreatest b ws) :
    IsGreatest (maxWithNone a b) (vs ++ ws) := by
  cases a <;> cases b <;> simp only [maxWithNone, IsGreatest, List.mem_append] at * <;> grind

theorem rat_sum_append (vs ws : List Rat) : (vs ++ ws).sum = vs.sum + ws.sum := by
  induction vs with
  | nil => simp only [List.nil_append, List.sum_nil]; grind
  | cons v vs ih => simp only [List.cons_append, List.sum_cons, ih]; grind

theorem sums_merge {a b : Acc} {vs ws : List Rat} (ha : Sums a vs) (hb : Sums b ws) : Sums (a.merge b) (vs ++ ws) :=
  ⟨by simp [Acc.merge, ha.count, hb.count], by simp only [Acc.merge, ha.sum, hb.sum, rat_sum_append],
    by simp only [Acc.merge, ha.sumsq, hb.sumsq, List.map_append, rat_sum_append],
    isLeast_append ha.min hb.min, isGreatest_append ha.max hb.max⟩

theorem sums_add {a : Acc} {vs : List Rat} (ha : Sums a vs) (v : Rat) : Sums (a.add v) (vs ++ [v]) :=
  sums_merge ha (sums_ofValue v)

theorem rat_sum_perm {vs ws : List Rat} (h : vs.Perm ws) : vs.sum = ws.sum := by
  induction h with
  | nil => rfl
  | cons x _ ih => simp only [List.sum_cons, ih]
  | swap x y l => simp only [List.sum_cons]; grind
  | trans _ _ h1 h2 => exact h1.trans h2

theorem sums_perm {a : Acc} {vs ws : List Rat} (h : vs.Perm ws) (ha : Sums a vs) : Sums a ws := by
  refine ⟨ha.count.trans h.length_eq, ha.sum.trans (rat_sum_perm h), ha.sumsq.trans (rat_sum_perm (h.map _)), ?_, ?_⟩
  · have := ha.min
    cases hm : a.min with
    | none => rw [hm] at this; simp only [IsLeast] at this ⊢; subst this; exact h.nil_eq.symm
    | some m => rw [hm] at this; exact ⟨h.mem_iff.1 this.1, fun v hv => this.2 v (h.mem_iff.2 hv)⟩
  · have := ha.max
    cases hm : a.max with
    | none => rw [hm] at this; simp only [IsGreatest] at this ⊢; subst this; exact h.nil_eq.symm
    | some m => rw [hm] at this; exact ⟨h.mem_iff.1 this.1, fun v hv => this.2 v (h.mem_iff.2 hv)⟩

theorem sums_unique {a b : Acc} {vs : List Rat} (ha : Sums a vs) (hb : Sums b vs) : a = b := by
  obtain ⟨ac, as, aq, amn, amx⟩ := a
  obtain ⟨bc, bs, bq, bmn, bmx⟩ := b
  obtain ⟨h1, h2, h3, h4, h5⟩ := ha
  obtain ⟨g1, g2, g3, g4, g5⟩ := hb
  simp only at *
  subst h1 h2 h3 g1 g2 g3
  have e1 : amn = bmn := by
    cases amn <;> cases bmn <;> simp only [IsLeast] at h4 g4 <;> grind
  have e2 : amx = bmx := by
    cases amx <;> cases bmx <;> simp only [IsGreatest] at h5 g5 <;> grind
  rw [e1, e2]

theorem ofList_snoc (vs : List Rat) (v : Rat) : Acc.ofList (vs ++ [v]) = (Acc.ofList vs).add v := by
  simp [Acc.ofList, Acc.add, List.foldl_append]

theorem sums_ofList_append (vs ws : List Rat) (h : Sums (Acc.ofList vs) vs) : Sums (Acc.ofList (vs ++ ws)) (vs ++ ws) := by
  induction ws generalizing vs with
  | nil => simpa using h
  | cons w ws ih =>
    have := ih (vs ++ [w]) (by rw [ofList_snoc]; exact sums_add h w)
    simpa using this

theorem sums_ofList (vs : List Rat) : Sums (Acc.ofList vs) vs := by
  have := sums_ofList_append [] vs sums_empty
  simpa using this

theorem toBytes_of_sums {a : Acc} {vs : List Rat} (h : Sums a vs) (hn : vs ≠ []) :
    ∃ p, a.toBytes = some p ∧ fromBytes p = a := by
  unfold Acc.toBytes
  by_cases h1 : a.count = 1
  · rw [if_pos h1]
    refine ⟨_, rfl, ?_⟩
    have hl : vs.length = 1 := h.count.symm.trans h1
    obtain ⟨v, rfl⟩ := List.length_eq_one_iff.1 hl
    have : a = Acc.ofValue v := sums_unique h (sums_ofValue v)
    subst this
    rfl
  · rw [if_neg h1]
    have h4 := h.min
    have h5 := h.max
    obtain ⟨c, s, q, mn, mx⟩ := a
    cases mn with
    | none => exact absurd h4 hn
    | some mn =>
      cases mx with
      | none => exact absurd h5 hn
      | some mx => exact ⟨_, rfl, rfl⟩

/-! ## Frames -/

theorem Frame.get_set (f : Frame) (n m : Name) (a : Acc) :
    Frame.get (Dict.set f n a) m = if n = m then a else Frame.get f m := by
  unfold Frame.get
  rw [Dict.get?_set]
  split <;> rfl

theorem Frame.add_eq (f : Frame) (n : Name) (p : Packed) :
    f.add n p = Dict.set f n ((f.get n).merge (fromBytes p)) := by
  cases p <;> rfl

/-- What an entry of the store says about name `n`. -/
def entryAcc (n : Name) (m : Name) (p : Packed) : Acc := if m = n then fromBytes p else Acc.empty

theorem Frame.get_add (f : Frame) (n m : Name) (p : Packed) :
    (f.add n p).get m = (f.get m).merge (entryAcc m n p) := by
  rw [Frame.add_eq, Frame.get_set]
  unfold entryAcc
  split
  · next h => subst h; rfl
  · rw [merge_empty]

theorem Frame.nodup_add {f : Frame} (h : (Dict.keys f).Nodup) (n : Name) (p : Packed) :
    (Dict.keys (f.add n p)).Nodup := by
  rw [Frame.add_eq]; exact Dict.nodup_keys_set h _ _

theorem Frame.get_merge (f g : Frame) (hg : (Dict.keys g).Nodup) (n : Name) :
    (f.merge g).get n = (f.get n).merge (g.get n) := by
  unfold Frame.merge
  induction g generalizing f with
  | nil => simp only [List.foldl_nil]; exact (merge_empty _).symm
  | cons e g ih =>
    have hk : e.1 ∉ Dict.keys g ∧ (Dict.keys g).Nodup := by
      simpa [Dict.keys] using hg
    rw [List.foldl_cons, ih _ hk.2, Frame.get_set]
    have hc : Frame.get (e :: g) n = if e.1 = n then e.2 else Frame.get g n := by
      unfold Frame.get
      rw [Dict.get?_cons]
      split <;> rfl
    rw [hc]
    split
    · next h =>
      have : Frame.get g n = Acc.empty := by
        unfold Frame.get
        cases hq : Dict.get? g n with
        | none => rfl
        | some a => exact absurd ((Dict.mem_keys g n).2 ⟨a, hq⟩) (h ▸ hk.1)
      rw [this, merge_empty, h]
    · rfl

theorem Frame.nodup_merge (f g : Frame) (hf : (Dict.keys f).Nodup) : (Dict.keys (f.merge g)).Nodup := by
  unfold Frame.merge
  induction g generalizing f with
  | nil => exact hf
  | cons e g ih => exact ih _ (Dict.nodup_keys_set hf _ _)

/-- All frames together, for name `n`. -/
def sumFrames (n : Name) (fs : List Frame) : Acc := fs.foldr (fun f a => (f.get n).merge a) Acc.empty

theorem sumFrames_append (n : Name) (fs gs : List Frame) :
    sumFrames n (fs ++ gs) = (sumFrames n fs).merge (sumFrames n gs) := by
  induction fs with
  | nil => exact (empty_merge _).symm
  | cons f fs ih =>
    show (f.get n).merge (sumFrames n (fs ++ gs)) = ((f.get n).merge (sumFrames n fs)).merge _
    rw [ih, merge_assoc]

theorem mergeAll_spec (k : Nat) (fs : List Frame) (hk : fs.length ≤ k) (h : ∀ f ∈ fs, (Dict.keys f).Nodup) :
    (Dict.keys (mergeAll fs)).Nodup ∧ ∀ n, (mergeAll fs).get n = sumFrames n fs := by
  induction k generalizing fs with
  | zero =>
    have : fs = [] := List.length_eq_zero_iff.1 (by omega)
    subst this
    unfold mergeAll
    exact ⟨List.nodup_nil, fun _ => rfl⟩
  | succ k ih =>
    unfold mergeAll
    split
    · next h0 =>
      have : fs = [] := List.length_eq_zero_iff.1 h0
      subst this
      exact ⟨List.nodup_nil, fun _ => rfl⟩
    · split
      · next h1 =>
        obtain ⟨f, rfl⟩ := List.length_eq_one_iff.1 h1
        exact ⟨h f (by simp), fun n => (merge_empty _).symm⟩
      · next h0 h1 =>
        have hl := ih (fs.take (fs.length / 2)) (by simp only [List.length_take]; omega)
          (fun f hf => h f (List.mem_of_mem_take hf))
        have hr := ih (fs.drop (fs.length / 2)) (by simp only [List.length_drop]; omega)
          (fun f hf => h f (List.mem_of_mem_drop hf))
        refine ⟨Frame.nodup_merge _ _ hl.1, fun n => ?_⟩
        rw [Frame.get_merge _ _ hr.1, hl.2, hr.2, ← sumFrames_append, List.take_append_drop]

/-! ## Reading -/

/-- What the entries say about name `n`. -/
def accOf (n : Name) (l : Store) : Acc := l.foldr (fun e a => (entryAcc n e.2.1 e.2.2).merge a) Acc.empty

theorem accOf_perm (n : Name) {l l' : Store} (h : l.Perm l') : accOf n l = accOf n l' := by
  induction h with
  | nil => rfl
  | cons x _ ih => show Acc.merge _ (accOf n _) = Acc.merge _ (accOf n _); rw [ih]
  | swap x y l =>
    show Acc.merge _ (Acc.merge _ (accOf n l)) = Acc.merge _ (Acc.merge _ (accOf n l))
    rw [← merge_assoc, ← merge_assoc, merge_comm (entryAcc n y.2.1 y.2.2)]
  | trans _ _ h1 h2 => exact h1.trans h2

/-- Entries added one by one. -/
def addAll (step : Nat) (s : Stats) (l : Store) : Stats :=
  l.foldl (fun s e => s.add step (decodeTime e.1) e.2.1 e.2.2) s

theorem frame_add (s : Stats) (step : Nat) (t u : Time) (n m : Name) (p : Packed) :
    ((s.add step t n p).frame step u).get m =
      ((s.frame step u).get m).merge (if truncTs t step = truncTs u step then entryAcc m n p else Acc.empty) := by
  unfold Stats.add
  rw [show Stats.frame (Dict.set s (truncTs t step) ((s.frame step t).add n p)) step u
      = if truncTs t step = truncTs u step then (s.frame step t).add n p else s.frame step u by
    unfold Stats.frame
    rw [Dict.get?_set]
    split <;> rfl]
  split
  · next h =>
    rw [Frame.get_add]
    unfold Stats.frame
    rw [h]
  · rw [merge_empty]

theorem frame_addAll (step : Nat) (l : Store) (s : Stats) (u : Time) (m : Name) :
    ((addAll step s l).frame step u).get m =
      ((s.frame step u).get m).merge
        (accOf m (l.filter (fun e => truncTs (decodeTime e.1) step = truncTs u step))) := by
  induction l generalizing s with
  | nil => exact (merge_empty _).symm
  | cons e l ih =>
    rw [show addAll step s (e :: l) = addAll step (s.add step (decodeTime e.1) e.2.1 e.2.2) l from rfl, ih, frame_add,
      List.filter_cons, merge_assoc]
    by_cases h : truncTs (decodeTime e.1) step = truncTs u step
    · rw [if_pos h, if_pos (by simpa using h)]; rfl
    · rw [if_neg h, if_neg (by simpa using h), empty_merge]

/-- No name twice in a frame, and no frame twice. -/
def GoodStats (s : Stats) : Prop := (Dict.keys s).Nodup ∧ ∀ e ∈ s, (Dict.keys e.2).Nodup

theorem goodStats_add {s : Stats} (h : GoodStats s) (step : Nat) (t : Time) (n : Name) (p : Packed) :
    GoodStats (s.add step t n p) := by
  refine ⟨Dict.nodup_keys_set h.1 _ _, fun e he => ?_⟩
  rcases Dict.mem_set he with h1 | h1
  · exact h.2 e h1
  · subst h1
    refine Frame.nodup_add ?_ _ _
    unfold Stats.frame
    cases hq : Dict.get? s (truncTs t step) with
    | none => exact List.nodup_nil
    | some f => exact h.2 _ (Dict.mem_of_get? hq)

theorem sumFrames_set (n : Name) (s : Stats) (h : (Dict.keys s).Nodup) (t : Time) (f : Frame) (a : Acc)
    (hf : f.get n = (((Dict.get? s t).getD []).get n).merge a) :
    sumFrames n ((Dict.set s t f).map Prod.snd) = (sumFrames n (s.map Prod.snd)).merge a := by
  induction s with
  | nil =>
    show (f.get n).merge Acc.empty = Acc.empty.merge a
    rw [hf, merge_empty]
    rfl
  | cons e s ih =>
    have hk : e.1 ∉ Dict.keys s ∧ (Dict.keys s).Nodup := by simpa [Dict.keys] using h
    rw [Dict.get?_cons] at hf
    unfold Dict.set
    by_cases he : e.1 = t
    · rw [if_pos he] at hf ⊢
      show (f.get n).merge (sumFrames n (s.map Prod.snd)) = ((Frame.get e.2 n).merge (sumFrames n (s.map Prod.snd))).merge a
      rw [hf]
      show ((Frame.get e.2 n).merge a).merge _ = _
      rw [merge_assoc, merge_assoc, merge_comm a]
    · rw [if_neg he] at hf ⊢
      show (Frame.get e.2 n).merge (sumFrames n ((Dict.set s t f).map Prod.snd))
        = ((Frame.get e.2 n).merge (sumFrames n (s.map Prod.snd))).merge a
      rw [ih hk.2 hf, merge_assoc]

theorem total_addAll (step : Nat) (l : Store) (s : Stats) (h : GoodStats s) (n : Name) :
    (Stats.total (addAll step s l)).get n = (sumFrames n (s.map Prod.snd)).merge (accOf n l) := by
  induction l generalizing s with
  | nil =>
    rw [show accOf n [] = Acc.empty from rfl, merge_empty]
    refine (mergeAll_spec _ _ (Nat.le_refl _) ?_).2 n
    intro f hf
    obtain ⟨e, he, rfl⟩ := List.mem_map.1 hf
    exact h.2 e he
  | cons e l ih =>
    rw [show addAll step s (e :: l) = addAll step (s.add step (decodeTime e.1) e.2.1 e.2.2) l from rfl,
      ih _ (goodStats_add h ..)]
    unfold Stats.add
    rw [sumFrames_set n s h.1 (truncTs (decodeTime e.1) step) ((s.frame step (decodeTime e.1)).add e.2.1 e.2.2)
      (entryAcc n e.2.1 e.2.2) (Frame.get_add _ _ _ _), merge_assoc]
    rfl

/-- Sorted by key, no key twice. -/
def Sorted (st : Store) : Prop := st.Pairwise (fun a b => a.1 < b.1)

theorem decodeTime_mono {a b : Nat} (h : a < b) : decodeTime a ≤ decodeTime b := by
  unfold decodeTime
  rw [Nat.shiftRight_eq_div_pow, Nat.shiftRight_eq_div_pow]
  exact Nat.div_le_div_right (Nat.le_of_lt h)

theorem loadFrom_eq (known : Name → Bool) (maxTs : Option Time) (step : Nat) (st : Store) (hs : Sorted st) (res : Stats) :
    loadFrom known maxTs step res st =
      addAll step res (st.filter (fun e => known e.2.1 && maxTs.all (fun m => decodeTime e.1 ≤ m))) := by
  induction st generalizing res with
  | nil => rfl
  | cons e st ih =>
    have hs' := List.pairwise_cons.1 hs
    unfold loadFrom
    cases hk : known e.2.1 with
    | false =>
      rw [if_pos rfl, ih hs'.2, List.filter_cons, if_neg (by simp [hk])]
    | true =>
      rw [if_neg (by simp)]
      cases maxTs with
      | none =>
        rw [if_neg (by simp), ih hs'.2, List.filter_cons, if_pos (by simp [hk])]
        rfl
      | some m =>
        by_cases hm : decodeTime e.1 > m
        · rw [if_pos (by simpa using hm)]
          have : (e :: st).filter (fun e => known e.2.1 && (some m).all (fun m => decodeTime e.1 ≤ m)) = [] := by
            refine List.filter_eq_nil_iff.2 (fun x hx => ?_)
            have : decodeTime e.1 ≤ decodeTime x.1 := by
              rcases List.mem_cons.1 hx with h | h
              · subst h; exact Nat.le_refl _
              · exact decodeTime_mono (hs'.1 x h)
            have : m < decodeTime x.1 := Nat.lt_of_lt_of_le hm this
            simp; intro _; exact this
          rw [this]
          rfl
        · rw [if_neg (by simpa using hm), ih hs'.2, List.filter_cons, if_pos (by simpa [hk] using hm)]
          rfl

/-! ## Keys -/

theorem encodeKey_eq (t seq : Nat) : encodeKey t seq = t % 2 ^ 53 * 2 ^ 11 + seq % 2 ^ 11 := by
  unfold encodeKey
  rw [show (1 <<< 53 - 1 : Nat) = 2 ^ 53 - 1 from rfl, show (1 <<< 11 - 1 : Nat) = 2 ^ 11 - 1 from rfl,
    Nat.and_two_pow_sub_one_eq_mod, Nat.and_two_pow_sub_one_eq_mod,
    ← Nat.shiftLeft_add_eq_or_of_lt (Nat.mod_lt _ (by decide)), Nat.shiftLeft_eq]

theorem encodeKey_inj (t seq t' seq' : Nat) :
    encodeKey t seq = encodeKey t' seq' ↔ t % 2 ^ 53 = t' % 2 ^ 53 ∧ seq % 2 ^ 11 = seq' % 2 ^ 11 := by
  rw [encodeKey_eq, encodeKey_eq]
  have := Nat.mod_lt seq (show 2 ^ 11 > 0 by decide)
  have := Nat.mod_lt seq' (show 2 ^ 11 > 0 by decide)
  constructor
  · intro h
    constructor <;> omega
  · intro h
    rw [h.1, h.2]

theorem decodeTime_encodeKey (t seq : Nat) : decodeTime (encodeKey t seq) = t % 2 ^ 53 := by
  unfold decodeTime
  rw [encodeKey_eq, Nat.shiftRight_eq_div_pow]
  exact (by omega : (t % 2 ^ 53 * 2 ^ 11 + seq % 2 ^ 11) / 2 ^ 11 = t % 2 ^ 53)

theorem putKey_fresh (k : Nat) (v : Name × Packed) (st : Store) (h : ∀ e ∈ st, e.1 ≠ k) :
    (putKey k v st).Perm ((k, v) :: st) := by
  induction st with
  | nil => exact List.Perm.refl _
  | cons e st ih =>
    unfold putKey
    split
    · exact List.Perm.refl _
    · rw [if_neg (fun hk => h e (by simp) hk.symm)]
      exact ((ih (fun x hx => h x (by simp [hx]))).cons e).trans (List.Perm.swap _ _ _)

theorem mem_putKey {k : Nat} {v : Name × Packed} {st : Store} {x : Nat × Name × Packed} (h : x ∈ putKey k v st) :
    x = (k, v) ∨ x ∈ st := by
  induction st with
  | nil => left; simpa [putKey] using h
  | cons e st ih =>
    unfold putKey at h
    split at h
    · rcases List.mem_cons.1 h with h | h
      · exact .inl h
      · exact .inr h
    · split at h
      · rcases List.mem_cons.1 h with h | h
        · exact .inl h
        · exact .inr (by simp [h])
      · rcases List.mem_cons.1 h with h | h
        · exact .inr (by simp [h])
        · rcases ih h with h | h
          · exact .inl h
          · exact .inr (by simp [h])

theorem sorted_putKey (k : Nat) (v : Name × Packed) (st : Store) (h : Sorted st) : Sorted (putKey k v st) := by
  induction st with
  | nil => exact List.pairwise_singleton _ _
  | cons e st ih =>
    have h' := List.pairwise_cons.1 h
    unfold putKey
    split
    · next hk =>
      refine List.pairwise_cons.2 ⟨fun x hx => ?_, h⟩
      rcases List.mem_cons.1 hx with rfl | hx
      · exact hk
      · exact Nat.lt_trans hk (h'.1 x hx)
    · split
      · next hk => exact List.pairwise_cons.2 ⟨fun x hx => hk ▸ h'.1 x hx, h'.2⟩
      · next h1 h2 =>
        refine List.pairwise_cons.2 ⟨fun x hx => ?_, ih h'.2⟩
        rcases mem_putKey hx with rfl | hx
        · show e.1 < k; omega
        · exact h'.1 x hx

/-! ## Collecting -/

/-- The entry of a record. -/
def entryOf (r : Rec) : Nat × Name × Packed :=
  (encodeKey r.time r.seq, r.name, (Acc.ofList r.samples).toBytes.getD (.one 0))

/-- The accumulators for the samples not stored yet. -/
def accsOf (pending : List (Name × Rat)) : Dict Name Acc :=
  (namesOf pending).map (fun n => (n, Acc.ofList (samplesOf n pending)))

theorem namesOf_snoc (l : List (Name × Rat)) (e : Name × Rat) :
    namesOf (l ++ [e]) = if e.1 ∈ namesOf l then namesOf l else namesOf l ++ [e.1] := by
  unfold namesOf
  rw [List.foldl_append]
  rfl

theorem samplesOf_snoc (n : Name) (l : List (Name × Rat)) (e : Name × Rat) :
    samplesOf n (l ++ [e]) = samplesOf n l ++ (if e.1 = n then [e.2] else []) := by
  unfold samplesOf
  rw [List.filter_append, List.map_append, List.filter_cons]
  by_cases h : e.1 = n <;> simp [h]

theorem names_good (l : List (Name × Rat)) :
    (namesOf l).Nodup ∧ ∀ n, n ∈ namesOf l ↔ samplesOf n l ≠ [] := by
  suffices H : ∀ k, ∀ l : List (Name × Rat), l.length = k → (namesOf l).Nodup ∧ ∀ n, n ∈ namesOf l ↔ samplesOf n l ≠ [] from
    H _ l rfl
  intro k
  induction k with
  | zero =>
    intro l hl
    have := List.length_eq_zero_iff.1 hl
    subst this
    exact ⟨List.nodup_nil, fun n => by simp [namesOf, samplesOf]⟩
  | succ k ih =>
    intro l hl
    rcases List.eq_nil_or_concat l with rfl | ⟨l', e, h⟩
    · simp at hl
    · rw [List.concat_eq_append] at h
      subst h
      obtain ⟨h1, h2⟩ := ih l' (by simpa using hl)
      constructor
      · rw [namesOf_snoc]
        split
        · exact h1
        · next h =>
          refine List.nodup_append.2 ⟨h1, by simp, fun a ha b hb => ?_⟩
          simp only [List.mem_singleton] at hb
          subst hb
          intro hab
          exact h (hab ▸ ha)
      · intro n
        rw [namesOf_snoc, samplesOf_snoc]
        have hn := h2 n
        have he := h2 e.1
        by_cases hen : e.1 = n
        · subst hen
          rw [if_pos rfl]
          split
          · next h => simp [h]
          · simp
        · rw [if_neg hen, List.append_nil, ← hn]
          split
          · exact Iff.rfl
          · simp only [List.mem_append, List.mem_singleton]
            exact ⟨fun h => h.resolve_right (fun h => hen h.symm), Or.inl⟩

theorem get?_map (ns : List Name) (g : Name → Acc) (n : Name) :
    Dict.get? (ns.map (fun m => (m, g m))) n = if n ∈ ns then some (g n) else none := by
  induction ns with
  | nil => rfl
  | cons m ns ih =>
    rw [List.map_cons, Dict.get?_cons, ih]
    by_cases h : m = n
    · subst h; simp
    · have : ¬ n = m := fun e => h e.symm
      simp [h, this]

theorem set_map (ns : List Name) (hn : ns.Nodup) (g : Name → Acc) (n : Name) (a : Acc) :
    Dict.set (ns.map (fun m => (m, g m))) n a =
      (if n ∈ ns then ns else ns ++ [n]).map (fun m => (m, if m = n then a else g m)) := by
  induction ns with
  | nil => simp [Dict.set]
  | cons m ns ih =>
    have hn' := List.nodup_cons.1 hn
    rw [List.map_cons, Dict.set]
    by_cases h : m = n
    · subst h
      rw [if_pos rfl, if_pos (by simp), List.map_cons, if_pos rfl]
      congr 1
      refine List.map_congr_left (fun x hx => ?_)
      rw [if_neg (fun e : x = m => hn'.1 (e ▸ hx))]
    · have h' : ¬ n = m := fun e => h e.symm
      rw [if_neg h, ih hn'.2]
      by_cases hm : n ∈ ns
      · rw [if_pos hm, if_pos (by simp [hm]), List.map_cons, if_neg h]
      · rw [if_neg hm, if_neg (by simp [hm, h']), List.cons_append, List.map_cons, if_neg h]

theorem accsOf_add (pending : List (Name × Rat)) (n : Name) (v : Rat) :
    Dict.set (accsOf pending) n (((Dict.get? (accsOf pending) n).getD Acc.empty).add v) = accsOf (pending ++ [(n, v)]) := by
  obtain ⟨h1, h2⟩ := names_good pending
  have hg : (Dict.get? (accsOf pending) n).getD Acc.empty = Acc.ofList (samplesOf n pending) := by
    unfold accsOf
    rw [get?_map (namesOf pending) (fun m => Acc.ofList (samplesOf m pending))]
    split
    · rfl
    · next h =>
      have : samplesOf n pending = [] := Classical.byContradiction (fun hc => h ((h2 n).2 hc))
      rw [this]
      rfl
  rw [hg]
  unfold accsOf
  rw [set_map _ h1 (fun m => Acc.ofList (samplesOf m pending)), namesOf_snoc]
  refine List.map_congr_left (fun m _ => ?_)
  rw [samplesOf_snoc]
  by_cases h : m = n
  · subst h; rw [if_pos rfl, if_pos rfl, ofList_snoc]
  · rw [if_neg h, if_neg (fun e => h e.symm), List.append_nil]

/-- The store holds the records and nothing else. -/
def Holds (st : Store) (rs : List Rec) : Prop := Sorted st ∧ st.Perm (rs.map entryOf)

theorem holds_put {st : Store} {rs : List Rec} (h : Holds st rs) (r : Rec)
    (ha : Apart (rs ++ [r])) (ht : InTime (rs ++ [r])) (p : Packed) (hp : (Acc.ofList r.samples).toBytes = some p)
    (k : Nat) (hk : k = encodeKey r.time r.seq) :
    Holds (putKey k (r.name, p) st) (rs ++ [r]) := by
  refine ⟨sorted_putKey _ _ _ h.1, ?_⟩
  have hf : ∀ e ∈ st, e.1 ≠ k := by
    intro e he hek
    obtain ⟨q, hq, rfl⟩ := List.mem_map.1 (h.2.mem_iff.1 he)
    have hap := (List.pairwise_append.1 ha).2.2 q hq r (by simp)
    have h1 := ht q (by simp [hq])
    have h2 := ht r (by simp)
    rw [hk] at hek
    have := (encodeKey_inj _ _ _ _).1 hek
    rw [Nat.mod_eq_of_lt h1.2, Nat.mod_eq_of_lt h2.2] at this
    exact hap this
  refine (putKey_fresh _ _ _ hf).trans ?_
  rw [List.map_append]
  have : entryOf r = (k, r.name, p) := by unfold entryOf; rw [hp, hk]; rfl
  rw [List.map_cons, List.map_nil, this]
  exact (h.2.cons _).trans (List.perm_append_singleton _ _).symm

theorem storeAll_holds (clock : Nat → Time) (pending : List (Name × Rat)) (ns : List Name)
    (hns : ∀ n ∈ ns, samplesOf n pending ≠ []) (i seq : Nat) (c : Coll) (rs : List Rec) (hc : c.closed = false)
    (hs : c.seq = seq % 2 ^ 11) (h : Holds c.store rs) (ha : Apart (rs ++ recsOf clock pending i seq ns))
    (ht : InTime (rs ++ recsOf clock pending i seq ns)) :
    let d := c.storeAll clock i (ns.map (fun n => (n, Acc.ofList (samplesOf n pending))))
    Holds d.store (rs ++ recsOf clock pending i seq ns) ∧ d.seq = (seq + ns.length) % 2 ^ 11 ∧ d.closed = false := by
  induction ns generalizing i seq c rs with
  | nil =>
    refine ⟨?_, hs, hc⟩
    simpa [recsOf, Coll.storeAll] using h
  | cons n ns ih =>
    have hn := hns n (by simp)
    obtain ⟨p, hp, _⟩ := toBytes_of_sums (sums_ofList (samplesOf n pending)) hn
    have hst : c.storeEvent (clock i) n (Acc.ofList (samplesOf n pending)) =
        { c with store := putKey (encodeKey (clock i) c.seq) (n, p) c.store, seq := (c.seq + 1) &&& (1 <<< 11 - 1) } := by
      unfold Coll.storeEvent
      rw [hc, hp]
      rfl
    simp only [recsOf] at ha ht ⊢
    rw [List.map_cons, Coll.storeAll]
    simp only
    rw [hst]
    have e : rs ++ (⟨clock i, seq, n, samplesOf n pending⟩ :: recsOf clock pending (i + 1) (seq + 1) ns) =
      (rs ++ [⟨clock i, seq, n, samplesOf n pending⟩]) ++ recsOf clock pending (i + 1) (seq + 1) ns := by simp
    rw [e] at ha ht ⊢
    have hk : encodeKey (clock i) c.seq = encodeKey (clock i) seq := (encodeKey_inj _ _ _ _).2 ⟨rfl, by rw [hs]; omega⟩
    have := ih (fun m hm => hns m (by simp [hm])) (i + 1) (seq + 1)
      { c with store := putKey (encodeKey (clock i) c.seq) (n, p) c.store, seq := (c.seq + 1) &&& (1 <<< 11 - 1) }
      (rs ++ [⟨clock i, seq, n, samplesOf n pending⟩]) hc
      (by
        show (c.seq + 1) &&& (1 <<< 11 - 1) = _
        rw [show (1 <<< 11 - 1 : Nat) = 2 ^ 11 - 1 from rfl, Nat.and_two_pow_sub_one_eq_mod, hs]
        omega)
      (holds_put h ⟨clock i, seq, n, samplesOf n pending⟩ (List.pairwise_append.1 ha).1
        (fun r hr => ht r (List.mem_append_left _ hr)) p hp _ hk) ha ht
    refine ⟨this.1, ?_, this.2.2⟩
    rw [this.2.1, List.length_cons]
    congr 1
    omega

theorem storeAll_closed (clock : Nat → Time) (l : List (Name × Acc)) (i : Nat) (c : Coll) (hc : c.closed = true) :
    c.storeAll clock i l = c := by
  induction l generalizing i with
  | nil => rfl
  | cons e l ih =>
    rw [Coll.storeAll, show c.storeEvent (clock i) e.1 e.2 = c by unfold Coll.storeEvent; rw [if_pos hc], ih]

theorem run_holds (es : List Ev) (c : Coll) (pending : List (Name × Rat)) (seq : Nat) (rs : List Rec)
    (hacc : c.accs = accsOf pending) (hs : c.seq = seq % 2 ^ 11) (h : Holds c.store rs)
    (ha : Apart (rs ++ stored pending seq c.closed es)) (ht : InTime (rs ++ stored pending seq c.closed es)) :
    Holds (c.run es).store (rs ++ stored pending seq c.closed es) := by
  induction es generalizing c pending seq rs with
  | nil => simpa [stored, Coll.run] using h
  | cons e es ih =>
    rw [show c.run (e :: es) = (c.step e).run es from rfl]
    cases e with
    | add n v =>
      simp only [stored] at ha ht ⊢
      refine ih (c.step (.add n v)) (pending ++ [(n, v)]) seq rs ?_ hs h ha ht
      show Dict.set c.accs n _ = _
      rw [hacc, accsOf_add]
    | flush clock =>
      cases hc : c.closed with
      | true =>
        simp only [stored, hc, if_true] at ha ht ⊢
        have hf : c.step (.flush clock) = { c with accs := [] } := by
          show ({ c.storeAll clock 0 c.accs with accs := [] } : Coll) = _
          rw [storeAll_closed clock _ _ c hc]
        rw [hf]
        have h3 : ({ c with accs := [] } : Coll).closed = true := hc
        have := ih { c with accs := [] } [] seq rs rfl hs h (by rw [h3]; exact ha) (by rw [h3]; exact ht)
        rw [show stored [] seq ({ c with accs := [] } : Coll).closed es = stored [] seq true es by rw [h3]] at this
        exact this
      | false =>
        simp only [stored, hc] at ha ht ⊢
        rw [if_neg (by simp), ← List.append_assoc] at ha ht ⊢
        have hst := storeAll_holds clock pending (namesOf pending) (fun n hn => ((names_good pending).2 n).1 hn) 0 seq c rs hc hs
          h (List.pairwise_append.1 ha).1 (fun r hr => ht r (List.mem_append_left _ hr))
        simp only at hst
        have e2 : c.storeAll clock 0 c.accs =
            c.storeAll clock 0 ((namesOf pending).map (fun n => (n, Acc.ofList (samplesOf n pending)))) := by
          rw [hacc]; rfl
        rw [← e2] at hst
        have := ih (c.step (.flush clock)) [] (seq + (namesOf pending).length)
          (rs ++ recsOf clock pending 0 seq (namesOf pending)) rfl hst.2.1 hst.1
        rw [show (c.step (.flush clock)).closed = false from hst.2.2] at this
        exact this ha ht
    | close =>
      simp only [stored] at ha ht ⊢
      exact ih (c.step .close) pending seq rs hacc hs h ha ht
    | restart =>
      simp only [stored] at ha ht ⊢
      exact ih (c.step .restart) [] 0 rs rfl rfl h ha ht

theorem samples_ne_nil (es : List Ev) (pending : List (Name × Rat)) (seq : Nat) (closed : Bool) :
    ∀ r ∈ stored pending seq closed es, r.samples ≠ [] := by
  have hrec : ∀ (clock : Nat → Time) (pending : List (Name × Rat)) (ns : List Name) (i seq : Nat),
      (∀ n ∈ ns, samplesOf n pending ≠ []) → ∀ r ∈ recsOf clock pending i seq ns, r.samples ≠ [] := by
    intro clock pending ns
    induction ns with
    | nil => intro i seq _ r hr; simp [recsOf] at hr
    | cons n ns ih =>
      intro i seq hns r hr
      rcases List.mem_cons.1 hr with rfl | hr
      · exact hns n (by simp)
      · exact ih _ _ (fun m hm => hns m (by simp [hm])) r hr
  induction es generalizing pending seq closed with
  | nil => intro r hr; simp [stored] at hr
  | cons e es ih =>
    cases e with
    | add n v => exact ih _ _ _
    | flush clock =>
      unfold stored
      split
      · exact ih _ _ _
      · intro r hr
        rcases List.mem_append.1 hr with hr | hr
        · exact hrec _ _ _ _ _ (fun n hn => ((names_good pending).2 n).1 hn) r hr
        · exact ih _ _ _ r hr
    | close => exact ih _ _ _
    | restart => exact ih _ _ _

theorem sums_entry (r : Rec) (h : r.samples ≠ []) : Sums (fromBytes (entryOf r).2.2) r.samples := by
  obtain ⟨p, hp, hf⟩ := toBytes_of_sums (sums_ofList r.samples) h
  unfold entryOf
  rw [hp]
  show Sums (fromBytes p) _
  rw [hf]
  exact sums_ofList _

theorem sums_accOf (n : Name) (p : Rec → Bool) (rs : List Rec) (h : ∀ r ∈ rs, r.samples ≠ []) :
    Sums (accOf n ((rs.filter p).map entryOf)) (pick n p rs) := by
  induction rs with
  | nil => exact sums_empty
  | cons r rs ih =>
    have ih := ih (fun x hx => h x (by simp [hx]))
    unfold pick at ih ⊢
    rw [List.filter_cons, List.filter_cons]
    by_cases hp : p r = true
    · rw [if_pos hp, List.map_cons]
      show Sums ((entryAcc n r.name (entryOf r).2.2).merge (accOf n _)) _
      unfold entryAcc
      by_cases hn : r.name = n
      · rw [if_pos hn, if_pos (by simp [hn, hp]), List.flatMap_cons]
        exact sums_merge (sums_entry r (h r (by simp))) ih
      · rw [if_neg hn, if_neg (by simp [hn]), empty_merge]
        exact ih
    · rw [if_neg hp, if_neg (by simp [hp])]
      exact ih

theorem holds_filter {st : Store} {rs : List Rec} (h : Holds st rs) (q : Nat × Name × Packed → Bool) :
    (st.filter q).Perm ((rs.filter (fun r => q (entryOf r))).map entryOf) := by
  have := h.2.filter q
  rw [List.filter_map] at this
  exact this

/-! ## The average and the range -/

theorem rat_sq_nonneg (a : Rat) : 0 ≤ a * a := by
  rcases Rat.le_total (a := 0) (b := a) with h | h
  · exact Rat.mul_nonneg h h
  · have := Rat.mul_nonneg (a := -a) (b := -a) (by grind) (by grind)
    grind

theorem sum_ge (m : Rat) (vs : List Rat) (h : ∀ v ∈ vs, m ≤ v) : (vs.length : Rat) * m ≤ vs.sum := by
  induction vs with
  | nil => simp only [List.length_nil, List.sum_nil]; grind
  | cons v vs ih =>
    have := ih (fun x hx => h x (by simp [hx]))
    have := h v (by simp)
    simp only [List.length_cons, List.sum_cons, Rat.natCast_add]
    grind

theorem sum_le (m : Rat) (vs : List Rat) (h : ∀ v ∈ vs, v ≤ m) : vs.sum ≤ (vs.length : Rat) * m := by
  induction vs with
  | nil => simp only [List.length_nil, List.sum_nil]; grind
  | cons v vs ih =>
    have := ih (fun x hx => h x (by simp [hx]))
    have := h v (by simp)
    simp only [List.length_cons, List.sum_cons, Rat.natCast_add]
    grind

theorem sum_gt (m : Rat) (vs : List Rat) (h : ∀ v ∈ vs, m ≤ v) (w : Rat) (hw : w ∈ vs) (hmw : m < w) :
    (vs.length : Rat) * m < vs.sum := by
  induction vs with
  | nil => simp at hw
  | cons v vs ih =>
    have h1 := h v (by simp)
    have h2 : ∀ x ∈ vs, m ≤ x := fun x hx => h x (by simp [hx])
    simp only [List.length_cons, List.sum_cons, Rat.natCast_add]
    rcases List.mem_cons.1 hw with rfl | hw
    · have := sum_ge m vs h2
      grind
    · have := ih h2 hw
      grind

/-- The squares of the distances from `m` add up to something not negative. -/
theorem sumsq_ge (m : Rat) (vs : List Rat) :
    0 ≤ (vs.map (fun v => v * v)).sum - 2 * m * vs.sum + (vs.length : Rat) * (m * m) := by
  induction vs with
  | nil => simp only [List.map_nil, List.length_nil, List.sum_nil]; grind
  | cons v vs ih =>
    have := rat_sq_nonneg (v - m)
    simp only [List.map_cons, List.length_cons, List.sum_cons, Rat.natCast_add]
    grind

end Verif.Metrics
