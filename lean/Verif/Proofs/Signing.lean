import Verif.Spec.Signing
import Verif.Model.Signing
import Verif.Proofs.MsgPack
import Verif.Props.PyInt
import Verif.Props.ReqIdrToTxn
/-! # Lemmas about the serialization for signing -/
namespace Verif.Signing
open Verif Verif.Spec Verif.MsgPack Verif.Kv

/-- One of the three delimiters. -/
def delim (c : UInt8) : Bool := c == 44 || c == 58 || c == 124

/-- Number of delimiters. -/
def cnt (s : Bytes) : Nat := (s.filter delim).length

theorem cnt_append (a b : Bytes) : cnt (a ++ b) = cnt a + cnt b := by simp [cnt]

theorem cnt_cons_delim {c : UInt8} (h : delim c = true) (b : Bytes) : cnt (c :: b) = cnt b + 1 := by
  simp [cnt, h]

theorem cnt_plain {s : Bytes} (h : PlainText s) : cnt s = 0 := by
  unfold cnt
  rw [List.length_eq_zero_iff, List.filter_eq_nil_iff]
  intro c hc
  simp [delim, h c hc]

theorem plain_of_cnt {s : Bytes} (h : cnt s = 0) : PlainText s := by
  unfold cnt at h
  rw [List.length_eq_zero_iff, List.filter_eq_nil_iff] at h
  intro c hc
  have := h c hc
  simp only [delim, Bool.or_eq_true, beq_iff_eq, not_or] at this
  exact ⟨this.1.1, this.1.2, this.2⟩

/-- Same number of delimiters before a delimiter: the same cut. -/
theorem cut (a a' : Bytes) {d d' : UInt8} (hd : delim d = true) (hd' : delim d' = true) (r r' : Bytes)
    (hc : cnt a = cnt a') (h : a ++ d :: r = a' ++ d' :: r') : a = a' ∧ r = r' := by
  induction a generalizing a' with
  | nil =>
    cases a' with
    | nil => simp at h; exact ⟨rfl, h.2⟩
    | cons x t =>
      simp only [List.nil_append, List.cons_append, List.cons.injEq] at h
      rw [← h.1, cnt_cons_delim hd] at hc
      simp [cnt] at hc
  | cons x t ih =>
    cases a' with
    | nil =>
      simp only [List.nil_append, List.cons_append, List.cons.injEq] at h
      rw [h.1, cnt_cons_delim hd'] at hc
      simp [cnt] at hc
    | cons y t' =>
      simp only [List.cons_append, List.cons.injEq] at h
      obtain ⟨rfl, h⟩ := h
      have hc' : cnt t = cnt t' := by
        have e1 : x :: t = [x] ++ t := rfl
        have e2 : x :: t' = [x] ++ t' := rfl
        rw [e1, e2, cnt_append, cnt_append] at hc
        omega
      obtain ⟨rfl, rfl⟩ := ih t' hc' h
      exact ⟨rfl, rfl⟩

theorem join_shape {sep : UInt8} (hs : delim sep = true) (xs ys : List Bytes) (hl : xs.length = ys.length)
    (hc : ∀ (i : Nat) (x y : Bytes), xs[i]? = some x → ys[i]? = some y → cnt x = cnt y) :
    cnt (join sep xs) = cnt (join sep ys) ∧ (join sep xs = join sep ys → xs = ys) := by
  induction xs generalizing ys with
  | nil => cases ys with
    | nil => exact ⟨rfl, fun _ => rfl⟩
    | cons => simp at hl
  | cons x r ih =>
    cases ys with
    | nil => simp at hl
    | cons y s =>
      have h0 : cnt x = cnt y := hc 0 x y rfl rfl
      have hr := ih s (by simpa using hl) (fun i a b h1 h2 => hc (i + 1) a b (by simpa using h1) (by simpa using h2))
      cases r with
      | nil =>
        cases s with
        | nil => exact ⟨h0, fun h => by simpa [join] using h⟩
        | cons => simp at hl
      | cons x' r =>
        cases s with
        | nil => simp at hl
        | cons y' s =>
          refine ⟨?_, fun h => ?_⟩
          · rw [join, join, cnt_append, cnt_append, cnt_cons_delim hs, cnt_cons_delim hs, h0, hr.1]
          · rw [join, join] at h
            obtain ⟨rfl, h'⟩ := cut x y hs hs _ _ h0 h
            rw [hr.2 h']

/-- Joining texts without delimiters loses nothing. -/
theorem join_inj {sep : UInt8} (xs ys : List Bytes) (hx : ∀ x ∈ xs, sep ∉ x)
    (hy : ∀ y ∈ ys, sep ∉ y) (hx0 : xs ≠ []) (hy0 : ys ≠ []) (h : join sep xs = join sep ys) : xs = ys := by
  have cutS : ∀ (a a' r r' : Bytes), sep ∉ a → sep ∉ a' → a ++ sep :: r = a' ++ sep :: r' → a = a' ∧ r = r' := by
    intro a
    induction a with
    | nil =>
      intro a' r r' _ h2 h
      cases a' with
      | nil => simp at h; exact ⟨rfl, h⟩
      | cons x t => simp only [List.nil_append, List.cons_append, List.cons.injEq] at h; rw [h.1] at h2; simp at h2
    | cons x t ih =>
      intro a' r r' h1 h2 h
      cases a' with
      | nil => simp only [List.nil_append, List.cons_append, List.cons.injEq] at h; rw [h.1] at h1; simp at h1
      | cons y t' =>
        simp only [List.cons_append, List.cons.injEq] at h
        obtain ⟨rfl, h⟩ := h
        simp only [List.mem_cons, not_or] at h1 h2
        obtain ⟨rfl, rfl⟩ := ih t' r r' h1.2 h2.2 h
        exact ⟨rfl, rfl⟩
  induction xs generalizing ys with
  | nil => exact absurd rfl hx0
  | cons x r ih =>
    cases ys with
    | nil => exact absurd rfl hy0
    | cons y s =>
      cases r with
      | nil =>
        cases s with
        | nil => simpa [join] using h
        | cons y' s =>
          rw [join, join] at h
          exact absurd (by rw [h]; simp : sep ∈ x) (hx x (by simp))
      | cons x' r =>
        cases s with
        | nil =>
          rw [join, join] at h
          exact absurd (by rw [← h]; simp : sep ∈ y) (hy y (by simp))
        | cons y' s =>
          rw [join, join] at h
          obtain ⟨rfl, h'⟩ := cutS _ _ _ _ (hx x (by simp)) (hy y (by simp)) h
          rw [ih (y' :: s) (fun z hz => hx z (by simp [hz])) (fun z hz => hy z (by simp [hz])) (by simp) (by simp) h']

/-! ## Integers -/

theorem decAux_range (fuel n : Nat) : ∀ c ∈ ReqDb.decAux fuel n, 48 ≤ c.toNat ∧ c.toNat ≤ 57 := by
  have hd : ∀ n, 48 ≤ (ReqDb.digit n).toNat ∧ (ReqDb.digit n).toNat ≤ 57 := by
    intro n
    have h := Props.digitVal_digit n
    unfold ReqDb.digitVal at h
    split at h
    · next hc => exact hc
    · cases h
  induction fuel generalizing n with
  | zero => simp [ReqDb.decAux]
  | succ f ih =>
    intro c hc
    unfold ReqDb.decAux at hc
    split at hc
    · rw [List.mem_singleton] at hc; rw [hc]; exact hd n
    · rcases List.mem_append.1 hc with hc | hc
      · exact ih _ c hc
      · rw [List.mem_singleton] at hc; rw [hc]; exact hd n

theorem str_range (n : Int) : ∀ c ∈ Py.str n, c.toNat = 45 ∨ (48 ≤ c.toNat ∧ c.toNat ≤ 57) := by
  intro c hc
  cases n with
  | ofNat n => exact Or.inr (decAux_range _ _ c hc)
  | negSucc n =>
    rcases List.mem_cons.1 hc with rfl | hc
    · exact Or.inl rfl
    · exact Or.inr (decAux_range _ _ c hc)

theorem intText_plain (n : Int) : PlainText (intText n) := by
  intro c hc
  obtain ⟨x, hx, rfl⟩ := List.mem_map.1 hc
  have hr := str_range n x hx
  have key : ∀ m : UInt8, m.toNat ≠ x.toNat % 256 → UInt8.ofNat x.toNat ≠ m := by
    intro m hm e
    apply hm
    rw [← e]
    simp [UInt8.toNat_ofNat']
  refine ⟨key 44 ?_, key 58 ?_, key 124 ?_⟩ <;> (simp; omega)

theorem intText_inj {a b : Int} (h : intText a = intText b) : a = b := by
  have key : ∀ l m : List Char, (∀ c ∈ l, c.toNat < 256) → (∀ c ∈ m, c.toNat < 256) →
      l.map (fun c => UInt8.ofNat c.toNat) = m.map (fun c => UInt8.ofNat c.toNat) → l = m := by
    intro l
    induction l with
    | nil => intro m _ _ h; cases m with
      | nil => rfl
      | cons => simp at h
    | cons x r ih =>
      intro m h1 h2 h
      cases m with
      | nil => simp at h
      | cons y s =>
        simp only [List.map_cons, List.cons.injEq] at h
        have hx := h1 x (by simp)
        have hy := h2 y (by simp)
        have e := congrArg UInt8.toNat h.1
        rw [UInt8.toNat_ofNat', UInt8.toNat_ofNat', Nat.mod_eq_of_lt (by omega), Nat.mod_eq_of_lt (by omega)] at e
        have : x = y := Char.ext (UInt32.toNat_inj.1 e)
        rw [this, ih s (fun c hc => h1 c (by simp [hc])) (fun c hc => h2 c (by simp [hc])) h.2]
  have bound : ∀ n : Int, ∀ c ∈ Py.str n, c.toNat < 256 := fun n c hc => by
    have := str_range n c hc
    omega
  have e := key _ _ (bound a) (bound b) h
  have := congrArg Py.int e
  rw [Py.int_str, Py.int_str] at this
  exact Option.some.inj this

/-! ## Lists and dicts -/

theorem serAll_some {fs : UInt64 → Bytes} (l : List Val) (xs : List Bytes) (h : serAll fs l = some xs) :
    xs.length = l.length ∧ ∀ (i : Nat) (v : Val), l[i]? = some v → ∃ x, ser fs v = some x ∧ xs[i]? = some x := by
  induction l generalizing xs with
  | nil => unfold serAll at h; cases h; exact ⟨rfl, by simp⟩
  | cons v r ih =>
    unfold serAll at h
    split at h
    · next x y h1 h2 =>
      cases h
      obtain ⟨hl, hi⟩ := ih y h2
      refine ⟨by simp [hl], fun i w hw => ?_⟩
      cases i with
      | zero => simp only [List.getElem?_cons_zero, Option.some.injEq] at hw; subst hw; exact ⟨x, h1, rfl⟩
      | succ i => simp only [List.getElem?_cons_succ] at hw; exact hi i w hw
    · cases h

theorem serItems_some {fs : UInt64 → Bytes} (d : List (Bytes × Val)) (xs : List (Bytes × Bytes))
    (h : serItems fs d = some xs) :
    xs.map Prod.fst = d.map Prod.fst ∧ (∀ k x, (k, x) ∈ xs → ∃ v, (k, v) ∈ d ∧ ser fs v = some x) := by
  induction d generalizing xs with
  | nil => unfold serItems at h; cases h; exact ⟨rfl, by simp⟩
  | cons e r ih =>
    obtain ⟨k, v⟩ := e
    unfold serItems at h
    split at h
    · next x y h1 h2 =>
      cases h
      obtain ⟨hl, hi⟩ := ih y h2
      refine ⟨by simp [hl], fun j w hw => ?_⟩
      rcases List.mem_cons.1 hw with hw | hw
      · cases hw; exact ⟨v, by simp, h1⟩
      · obtain ⟨u, hu, hs⟩ := hi j w hw
        exact ⟨u, by simp [hu], hs⟩
    · cases h

theorem sorted_keys_eq {α β : Type} (d : List (Bytes × α)) (e : List (Bytes × β)) (hd : (d.map Prod.fst).Nodup)
    (he : (e.map Prod.fst).Nodup) (h : ∀ k, k ∈ d.map Prod.fst ↔ k ∈ e.map Prod.fst) :
    (sortItems d).map Prod.fst = (sortItems e).map Prod.fst := by
  have aux : ∀ {γ : Type} (d : List (Bytes × γ)), (d.map Prod.fst).Nodup →
      Sorted bytewise (fun _ => True) ((sortItems d).map (fun e => (e.1, ()))) ∧
      ∀ k, (k, ()) ∈ (sortItems d).map (fun e => (e.1, ())) ↔ k ∈ d.map Prod.fst := by
    intro γ d hd
    obtain ⟨hs, hm⟩ := sortItems_spec d hd
    refine ⟨⟨fun _ _ => trivial, ?_⟩, fun k => ?_⟩
    · rw [List.pairwise_map]; exact hs.ord
    · simp only [List.mem_map, Prod.mk.injEq, and_true]
      constructor
      · rintro ⟨e, he, rfl⟩; exact ⟨e, (hm e).1 he, rfl⟩
      · rintro ⟨e, he, rfl⟩; exact ⟨e, (hm e).2 he, rfl⟩
  have := sorted_ext lawful_bytes (aux d hd).1 (aux e he).1 (fun x => by
    obtain ⟨k, ⟨⟩⟩ := x
    rw [(aux d hd).2, (aux e he).2, h])
  have := congrArg (List.map Prod.fst) this
  simpa [List.map_map, Function.comp_def] using this

/-- Values of the same shape have the same number of delimiters, and are equal if
their bytes are. -/
theorem same_shape {fs : UInt64 → Bytes} {a b : Val} (h : SameShape a b) (wa : WF a) (wb : WF b) (pa : Plain a)
    (pb : Plain b) (x y : Bytes) (ha : ser fs a = some x) (hb : ser fs b = some y) :
    cnt x = cnt y ∧ (x = y → Same a b) := by
  induction h generalizing x y with
  | none => unfold ser at ha hb; cases ha; cases hb; exact ⟨rfl, fun _ => .refl _⟩
  | bool a b =>
    cases a <;> cases b <;> unfold ser at ha hb <;> cases ha <;> cases hb
    · exact ⟨rfl, fun _ => .refl _⟩
    · exact ⟨by decide +kernel, fun h => absurd h (by decide +kernel)⟩
    · exact ⟨by decide +kernel, fun h => absurd h (by decide +kernel)⟩
    · exact ⟨rfl, fun _ => .refl _⟩
  | int a b =>
    unfold ser at ha hb; cases ha; cases hb
    refine ⟨by rw [cnt_plain (intText_plain a), cnt_plain (intText_plain b)], fun h => ?_⟩
    rw [intText_inj h]; exact .refl _
  | str a b =>
    unfold ser at ha hb; cases ha; cases hb
    cases pa with
    | str _ pa =>
    cases pb with
    | str _ pb =>
    exact ⟨by rw [cnt_plain pa, cnt_plain pb], fun h => by rw [h]; exact .refl _⟩
  | list l m hl _ ih =>
    cases wa with
    | list _ wa =>
    cases wb with
    | list _ wb =>
    cases pa with
    | list _ pa =>
    cases pb with
    | list _ pb =>
    unfold ser at ha hb
    obtain ⟨xs, hxs, rfl⟩ := Option.map_eq_some_iff.1 ha
    obtain ⟨ys, hys, rfl⟩ := Option.map_eq_some_iff.1 hb
    obtain ⟨lx, ix⟩ := serAll_some l xs hxs
    obtain ⟨ly, iy⟩ := serAll_some m ys hys
    have pw : ∀ (i : Nat) (p q : Bytes), xs[i]? = some p → ys[i]? = some q →
        ∃ v w, l[i]? = some v ∧ m[i]? = some w ∧ cnt p = cnt q ∧ (p = q → Same v w) := by
      intro i p q hp hq
      have h1 : i < l.length := by rw [← lx]; exact (List.getElem?_eq_some_iff.1 hp).1
      have h2 : i < m.length := by omega
      have e1 := List.getElem?_eq_getElem h1
      have e2 := List.getElem?_eq_getElem h2
      obtain ⟨p', s1, g1⟩ := ix i _ e1
      obtain ⟨q', s2, g2⟩ := iy i _ e2
      rw [hp] at g1; rw [hq] at g2; cases g1; cases g2
      exact ⟨_, _, e1, e2, ih i _ _ e1 e2 (wa _ (List.getElem_mem h1)) (wb _ (List.getElem_mem h2))
        (pa _ (List.getElem_mem h1)) (pb _ (List.getElem_mem h2)) p q s1 s2⟩
    obtain ⟨c1, c2⟩ := join_shape (sep := comma) rfl xs ys (by omega) (fun i p q hp hq => by
      obtain ⟨_, _, _, _, h, _⟩ := pw i p q hp hq; exact h)
    refine ⟨c1, fun h => ?_⟩
    have hxy := c2 h
    refine .list l m hl (fun i v w hv hw => ?_)
    obtain ⟨p, s1, g1⟩ := ix i v hv
    obtain ⟨q, s2, g2⟩ := iy i w hw
    obtain ⟨v', w', hv', hw', -, hs⟩ := pw i p q g1 g2
    rw [hv] at hv'; rw [hw] at hw'; cases hv'; cases hw'
    apply hs
    rw [hxy, g2] at g1
    cases g1; rfl
  | dict d e hk _ ih =>
    cases wa with
    | dict _ nd wa =>
    cases wb with
    | dict _ ne wb =>
    cases pa with
    | dict _ kd pa =>
    cases pb with
    | dict _ ke pb =>
    unfold ser at ha hb
    obtain ⟨xs, hxs, rfl⟩ := Option.map_eq_some_iff.1 ha
    obtain ⟨ys, hys, rfl⟩ := Option.map_eq_some_iff.1 hb
    obtain ⟨kx, ix⟩ := serItems_some d xs hxs
    obtain ⟨ky, iy⟩ := serItems_some e ys hys
    have nx : (xs.map Prod.fst).Nodup := by rw [kx]; exact nd
    have ny : (ys.map Prod.fst).Nodup := by rw [ky]; exact ne
    have keys := sorted_keys_eq xs ys nx ny (fun k => by rw [kx, ky]; exact hk k)
    have mx := (sortItems_spec xs nx).2
    have my := (sortItems_spec ys ny).2
    have len : (sortItems xs).length = (sortItems ys).length := by
      have := congrArg List.length keys
      simpa using this
    have pw : ∀ k p q, (k, p) ∈ xs → (k, q) ∈ ys → ∃ v w, (k, v) ∈ d ∧ (k, w) ∈ e ∧ ser fs v = some p ∧
        ser fs w = some q ∧ cnt p = cnt q ∧ (p = q → Same v w) := by
      intro k p q hp hq
      obtain ⟨v, hv, sv⟩ := ix k p hp
      obtain ⟨w, hw, sw⟩ := iy k q hq
      exact ⟨v, w, hv, hw, sv, sw, ih k v w hv hw (wa _ hv) (wb _ hw) (pa _ hv) (pb _ hw) p q sv sw⟩
    have at_ : ∀ (i : Nat) (p q : Bytes × Bytes), (sortItems xs)[i]? = some p → (sortItems ys)[i]? = some q → p.1 = q.1 := by
      intro i p q hp hq
      have := congrArg (fun l => l[i]?) keys
      simp only [List.getElem?_map, hp, hq, Option.map_some, Option.some.injEq] at this
      exact this
    obtain ⟨c1, c2⟩ := join_shape (sep := bar) rfl ((sortItems xs).map item) ((sortItems ys).map item) (by simp [len])
      (fun i p q hp hq => by
        rw [List.getElem?_map] at hp hq
        obtain ⟨⟨k, p'⟩, hp', rfl⟩ := Option.map_eq_some_iff.1 hp
        obtain ⟨⟨k', q'⟩, hq', rfl⟩ := Option.map_eq_some_iff.1 hq
        have hkk := at_ i _ _ hp' hq'
        simp only at hkk
        subst hkk
        obtain ⟨_, _, _, _, _, _, h, _⟩ := pw k p' q' ((mx _).1 (List.mem_of_getElem? hp')) ((my _).1 (List.mem_of_getElem? hq'))
        unfold item
        rw [cnt_append, cnt_append, cnt_cons_delim rfl, cnt_cons_delim rfl, h])
    refine ⟨c1, fun h => ?_⟩
    have hxy := c2 h
    refine .dict d e hk (fun k v w hv hw => ?_)
    have hkx : k ∈ xs.map Prod.fst := by rw [kx]; exact List.mem_map.2 ⟨_, hv, rfl⟩
    have hky : k ∈ ys.map Prod.fst := by rw [ky]; exact List.mem_map.2 ⟨_, hw, rfl⟩
    obtain ⟨⟨k1, p⟩, hp, hk1'⟩ := List.mem_map.1 hkx
    obtain ⟨⟨k2, q⟩, hq, hk2⟩ := List.mem_map.1 hky
    simp only at hk2 hk1'
    subst hk1'
    subst hk2
    obtain ⟨v', w', hv', hw', sv, sw, -, hs⟩ := pw _ p q hp hq
    rw [unique_item nd hv hv', unique_item ne hw hw']
    apply hs
    -- the item of this key is at the same place of both
    obtain ⟨i, hi⟩ := List.getElem?_of_mem ((mx _).2 hp)
    have hi' : i < (sortItems ys).length := by
      rw [← len]; exact (List.getElem?_eq_some_iff.1 hi).1
    have hj := List.getElem?_eq_getElem hi'
    have hk1 := at_ i _ _ hi hj
    have hqq : (sortItems ys)[i] = (k2, q) := by
      have hmem := (my _).1 (List.getElem_mem hi')
      have : (sortItems ys)[i] = ((sortItems ys)[i].1, (sortItems ys)[i].2) := rfl
      rw [this, ← hk1] at hmem ⊢
      rw [unique_item ny hmem hq]
    have h1 := congrArg (fun l => l[i]?) hxy
    simp only [List.getElem?_map, hi, hj, hqq, Option.map_some, Option.some.injEq, item] at h1
    have := List.append_cancel_left h1
    simpa using this

/-! ## Texts made of segments and tokens -/

/-- Segments separated by `|`, each made of tokens separated by `:`. -/
def text (l : List (List Bytes)) : Bytes := join bar (l.map (join colon))

theorem join_plain_bar {l : List Bytes} (h : ∀ t ∈ l, PlainText t) : bar ∉ join colon l := by
  induction l with
  | nil => simp [join]
  | cons x r ih =>
    have hx : bar ∉ x := fun hc => (h x (by simp) _ hc).2.2 rfl
    cases r with
    | nil => simpa [join] using hx
    | cons y s =>
      rw [join]
      simp only [List.mem_append, List.mem_cons, not_or]
      exact ⟨hx, by decide, ih (fun t ht => h t (by simp [ht]))⟩

theorem text_inj (l m : List (List Bytes)) (hl : ∀ s ∈ l, s ≠ [] ∧ ∀ t ∈ s, PlainText t)
    (hm : ∀ s ∈ m, s ≠ [] ∧ ∀ t ∈ s, PlainText t) (l0 : l ≠ []) (m0 : m ≠ []) (h : text l = text m) : l = m := by
  have h1 := join_inj (l.map (join colon)) (m.map (join colon))
    (fun x hx => by obtain ⟨s, hs, rfl⟩ := List.mem_map.1 hx; exact join_plain_bar (hl s hs).2)
    (fun x hx => by obtain ⟨s, hs, rfl⟩ := List.mem_map.1 hx; exact join_plain_bar (hm s hs).2)
    (by simpa using l0) (by simpa using m0) h
  clear h l0 m0
  induction l generalizing m with
  | nil => cases m with
    | nil => rfl
    | cons => simp at h1
  | cons a r ih =>
    cases m with
    | nil => simp at h1
    | cons b s =>
      simp only [List.map_cons, List.cons.injEq] at h1
      have hc : ∀ {t : Bytes}, PlainText t → colon ∉ t := fun ht hc => (ht _ hc).2.1 rfl
      rw [join_inj a b (fun t ht => hc ((hl a (by simp)).2 t ht)) (fun t ht => hc ((hm b (by simp)).2 t ht))
          (hl a (by simp)).1 (hm b (by simp)).1 h1.1,
        ih s (fun x hx => hl x (by simp [hx])) (fun x hx => hm x (by simp [hx])) h1.2]

theorem join_append {sep : UInt8} (a b : List Bytes) (ha : a ≠ []) (hb : b ≠ []) :
    join sep (a ++ b) = join sep a ++ sep :: join sep b := by
  induction a with
  | nil => exact absurd rfl ha
  | cons x r ih =>
    cases r with
    | nil =>
      cases b with
      | nil => exact absurd rfl hb
      | cons y s => rfl
    | cons y s =>
      rw [List.cons_append, List.cons_append, join, ← List.cons_append, ih (by simp), join]
      simp

end Verif.Signing
