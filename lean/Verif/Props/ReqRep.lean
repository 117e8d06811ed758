import Verif.Spec.ReqRep
/-!
# C116: the client finds in its store what the nodes answered
-/
namespace Verif.Props
open Verif Verif.ReqRep Verif.Spec.ReqRep

theorem rrs_tail_unique (a b x y : Str) (hx : ',' ∉ x) (hy : ',' ∉ y) (h : a ++ ',' :: x = b ++ ',' :: y) : a = b ∧ x = y := by
  induction a generalizing b with
  | nil =>
    cases b with
    | nil => simpa using h
    | cons c b =>
      simp only [List.nil_append, List.cons_append, List.cons.injEq] at h
      exact absurd (h.2 ▸ (by simp : ',' ∈ b ++ ',' :: y)) hx
  | cons c a ih =>
    cases b with
    | nil =>
      simp only [List.nil_append, List.cons_append, List.cons.injEq] at h
      exact absurd (h.2 ▸ (by simp : ',' ∈ a ++ ',' :: x)) hy
    | cons d b =>
      simp only [List.cons_append, List.cons.injEq] at h
      obtain ⟨h1, h2⟩ := ih b h.2
      exact ⟨by rw [h.1, h1], h2⟩

theorem rrs_no_comma (n : Nat) : ',' ∉ Nat.toDigits 10 n := by
  intro h
  have := Nat.isDigit_of_mem_toDigits (by decide) (by decide) h
  revert this
  decide

/-- Different requests have different files, whatever their identifiers. -/
theorem C116_keys (idr idr' : Str) (r r' : Nat) : createKey idr r = createKey idr' r' ↔ idr = idr' ∧ r = r' := by
  constructor
  · intro h
    obtain ⟨h1, h2⟩ := rrs_tail_unique _ _ _ _ (rrs_no_comma r) (rrs_no_comma r') h
    refine ⟨h1, ?_⟩
    rw [← Nat.ofDigitChars_ten_toDigits (n := r), h2, Nat.ofDigitChars_ten_toDigits]
  · rintro ⟨rfl, rfl⟩; rfl

theorem rrs_snoc {α : Type} {P : List α → Prop} (h0 : P []) (h1 : ∀ l a, P l → P (l ++ [a])) (l : List α) : P l := by
  suffices H : ∀ k, ∀ l : List α, l.length = k → P l from H _ l rfl
  intro k
  induction k with
  | zero => intro l hl; rw [List.length_eq_zero_iff.1 hl]; exact h0
  | succ k ih =>
    intro l hl
    rcases List.eq_nil_or_concat l with rfl | ⟨l', a, h⟩
    · simp at hl
    · rw [List.concat_eq_append] at h
      subst h
      exact h1 _ _ (ih l' (by simpa using hl))

theorem rrs_run_snoc (h : List Entry) (e : Entry) : run (h ++ [e]) = add (run h) e := by
  simp [run, List.foldl_append]

theorem rrs_items_snoc (h : List Entry) (e : Entry) (idr : Str) (r : Nat) :
    itemsOf (h ++ [e]) idr r = itemsOf h idr r ++ (if e.idr = idr ∧ e.reqId = r then [e.item] else []) := by
  unfold itemsOf
  rw [List.filter_append, List.map_append, List.filter_cons]
  by_cases hc : e.idr = idr ∧ e.reqId = r <;> simp [hc]

/-- The content of a file. -/
def rrs_content (is : List Item) : Str := is.flatMap (fun i => lineOf i ++ [linesep])

theorem rrs_file (h : List Entry) (idr : Str) (r : Nat) :
    Dict.get? (run h) (createKey idr r) = if itemsOf h idr r = [] then none else some (rrs_content (itemsOf h idr r)) := by
  induction h using rrs_snoc with
  | h0 => rfl
  | h1 h e ih =>
    rw [rrs_run_snoc, rrs_items_snoc]
    unfold add append
    rw [Dict.get?_set]
    by_cases hc : e.idr = idr ∧ e.reqId = r
    · rw [if_pos ((C116_keys _ _ _ _).2 hc), if_pos hc, if_neg (by simp), hc.1, hc.2, ih]
      congr 1
      split
      · next h0 => rw [h0]; simp [rrs_content]
      · simp [rrs_content]
    · rw [if_neg (fun hk => hc ((C116_keys _ _ _ _).1 hk)), if_neg hc, List.append_nil, ih]

theorem rrs_split_line (cur l r : Str) (h : OneLine l) :
    splitLines cur (l ++ linesep :: r) = (cur ++ l) :: splitLines [] r := by
  induction l generalizing cur with
  | nil =>
    show (if isBreak linesep = true then _ else _) = _
    rw [if_pos (by decide), List.append_nil]
  | cons c l ih =>
    rw [List.cons_append, splitLines, if_neg (by rw [h c (by simp)]; simp), ih _ (fun x hx => h x (by simp [hx]))]
    simp

theorem rrs_oneLine (i : Item) (h : Clean i) : OneLine (lineOf i) := by
  have hd : isBreak delimiter = false := by decide
  cases i <;> simp only [Clean, IsName, OneLine] at h <;> simp only [lineOf, OneLine, List.mem_cons, List.mem_append] <;>
    intro c hc
  · rcases hc with rfl | rfl | hc
    · decide
    · exact hd
    · exact h c hc
  · rcases hc with rfl | rfl | hc
    · decide
    · exact hd
    · exact h.1 c hc
  all_goals
    rcases hc with rfl | rfl | hc | rfl | hc
    · decide
    · exact hd
    · exact h.1.1 c hc
    · exact hd
    · exact h.2 c hc

theorem rrs_split (is : List Item) (h : ∀ i ∈ is, Clean i) : splitLines [] (rrs_content is) = is.map lineOf := by
  induction is with
  | nil => rfl
  | cons i is ih =>
    have e : rrs_content (i :: is) = lineOf i ++ linesep :: rrs_content is := by simp [rrs_content]
    rw [e, rrs_split_line _ _ _ (rrs_oneLine i (h i (by simp))), ih (fun x hx => h x (by simp [hx]))]
    simp

/-- The kind of an item. -/
def rrs_kind : Item → Kind
  | .request _ => .request
  | .ack _ => .ack
  | .nack _ _ => .nack
  | .reject _ _ => .reject
  | .reply _ _ => .reply

theorem rrs_prefix (k : Kind) (i : Item) : [k.char, delimiter].isPrefixOf (lineOf i) = decide (rrs_kind i = k) := by
  cases k <;> cases i <;> simp [lineOf, rrs_kind, Kind.char, List.isPrefixOf]

theorem rrs_lines (h : List Entry) (hc : ∀ e ∈ h, Clean e.item) (idr : Str) (r : Nat) (k : Kind) :
    linesWithPrefix (run h) idr r k = ((itemsOf h idr r).filter (fun i => rrs_kind i = k)).map lineOf := by
  have hi : ∀ i ∈ itemsOf h idr r, Clean i := by
    intro i hi
    obtain ⟨e, he, rfl⟩ := List.mem_map.1 hi
    exact hc e (List.mem_filter.1 he).1
  unfold linesWithPrefix
  rw [rrs_file]
  split
  · next h0 =>
    split at h0
    · next h1 => rw [h1]; rfl
    · cases h0
  · next d h0 =>
    split at h0
    · cases h0
    · cases h0
      rw [rrs_split _ hi, List.filter_map]
      congr 1
      refine List.filter_congr (fun i _ => ?_)
      exact rrs_prefix k i

theorem rrs_splitOnce (s r : Str) (h : '~' ∉ s) : splitOnce (s ++ delimiter :: r) = some (s, r) := by
  induction s with
  | nil => rfl
  | cons c s ih =>
    simp only [List.mem_cons, not_or] at h
    rw [List.cons_append, splitOnce, if_neg (fun e => h.1 e.symm), ih h.2]
    rfl

theorem rrs_single (k : Kind) (as : Item → Option Str) (ha : ∀ i, as i = none ↔ rrs_kind i ≠ k)
    (hl : ∀ i p, as i = some p → lineOf i = k.char :: delimiter :: p) (l : List Item) :
    ((l.filter (fun i => rrs_kind i = k)).map lineOf).map (fun x => x.drop 2) = l.filterMap as := by
  induction l with
  | nil => rfl
  | cons i l ih =>
    cases h : as i with
    | none =>
      have := (ha i).1 h
      rw [List.filter_cons, if_neg (by simpa using this), List.filterMap_cons, h, ih]
    | some p =>
      have : rrs_kind i = k := Classical.byContradiction (fun hn => by rw [(ha i).2 hn] at h; cases h)
      rw [List.filter_cons, if_pos (by simpa using this), List.filterMap_cons, h, List.map_cons, List.map_cons, ih, hl i p h]
      rfl

/-- A request is found exactly if something was written down for it. -/
theorem C116_hasRequest (h : List Entry) (idr : Str) (r : Nat) :
    hasRequest (run h) idr r = true ↔ ∃ e ∈ h, e.idr = idr ∧ e.reqId = r := by
  unfold hasRequest
  rw [Dict.has_iff]
  constructor
  · rintro ⟨v, hv⟩
    rw [rrs_file] at hv
    split at hv
    · cases hv
    · next hn =>
      obtain ⟨i, hi⟩ := List.exists_mem_of_ne_nil _ hn
      obtain ⟨e, he, _⟩ := List.mem_map.1 hi
      obtain ⟨h1, h2⟩ := List.mem_filter.1 he
      exact ⟨e, h1, by simpa using h2⟩
  · rintro ⟨e, he, hx⟩
    refine ⟨_, (rrs_file h idr r).trans (if_neg ?_)⟩
    intro h0
    have : e.item ∈ itemsOf h idr r := List.mem_map.2 ⟨e, List.mem_filter.2 ⟨he, by simpa using hx⟩, rfl⟩
    rw [h0] at this
    cases this

/-- The request that is found is the first one written down, if all texts are one line and nodes have names. -/
theorem C116_request_partial (h : List Entry) (hc : ∀ e ∈ h, Clean e.item) (idr : Str) (r : Nat) :
    getRequest (run h) idr r = ((itemsOf h idr r).filterMap asRequest).head? := by
  unfold getRequest
  rw [rrs_lines h hc, ← rrs_single .request asRequest (fun i => by cases i <;> simp [asRequest, rrs_kind])
    (fun i p hp => by cases i <;> simp_all [asRequest, lineOf]) (itemsOf h idr r)]
  exact List.head?_map.symm

/-- The acknowledgements that are found are those written down, in order. -/
theorem C116_acks_partial (h : List Entry) (hc : ∀ e ∈ h, Clean e.item) (idr : Str) (r : Nat) :
    getAcks (run h) idr r = (itemsOf h idr r).filterMap asAck := by
  unfold getAcks
  rw [rrs_lines h hc]
  exact rrs_single .ack asAck (fun i => by cases i <;> simp [asAck, rrs_kind])
    (fun i p hp => by cases i <;> simp_all [asAck, lineOf]) (itemsOf h idr r)

theorem rrs_collect (k : Char) (l : List (Str × Str)) (hl : ∀ p ∈ l, '~' ∉ p.1) (d : Dict Str Str) (hd : d.keys.Nodup) :
    ∃ d', collect d (l.map (fun p => k :: delimiter :: (p.1 ++ delimiter :: p.2))) = some d' ∧ d'.keys.Nodup ∧
      ∀ s, d'.get? s = (lastOf l s).or (d.get? s) := by
  induction l generalizing d with
  | nil => exact ⟨d, rfl, hd, fun s => by simp [lastOf]⟩
  | cons p l ih =>
    obtain ⟨d', h1, h2, h3⟩ := ih (fun q hq => hl q (by simp [hq])) (d.set p.1 p.2) (Dict.nodup_keys_set hd _ _)
    refine ⟨d', ?_, h2, fun s => ?_⟩
    · rw [List.map_cons, collect]
      simp only [List.drop_succ_cons, List.drop_zero]
      rw [rrs_splitOnce _ _ (hl p (by simp))]
      exact h1
    · rw [h3, Dict.get?_set]
      unfold lastOf
      rw [List.filter_cons]
      by_cases hs : p.1 = s
      · rw [if_pos hs, if_pos (by simpa using hs), List.map_cons, List.getLast?_cons]
        cases ((l.filter (fun q => q.1 = s)).map Prod.snd).getLast? <;> rfl
      · rw [if_neg hs, if_neg (by simpa using hs)]

theorem rrs_pairs (k : Kind) (as : Item → Option (Str × Str))
    (ha : ∀ i, as i = none ↔ rrs_kind i ≠ k)
    (hl : ∀ i p, as i = some p → lineOf i = k.char :: delimiter :: (p.1 ++ delimiter :: p.2)) (l : List Item) :
    (l.filter (fun i => rrs_kind i = k)).map lineOf =
      (l.filterMap as).map (fun p => k.char :: delimiter :: (p.1 ++ delimiter :: p.2)) := by
  induction l with
  | nil => rfl
  | cons i l ih =>
    cases h : as i with
    | none =>
      have := (ha i).1 h
      rw [List.filter_cons, if_neg (by simpa using this), List.filterMap_cons, h, ih]
    | some p =>
      have : rrs_kind i = k := Classical.byContradiction (fun hn => by rw [(ha i).2 hn] at h; cases h)
      rw [List.filter_cons, if_pos (by simpa using this), List.filterMap_cons, h, List.map_cons, ih, hl i p h]
      rfl

theorem rrs_answers (h : List Entry) (hc : ∀ e ∈ h, Clean e.item) (idr : Str) (r : Nat) (k : Kind)
    (as : Item → Option (Str × Str)) (ha : ∀ i, as i = none ↔ rrs_kind i ≠ k)
    (hl : ∀ i p, as i = some p → lineOf i = k.char :: delimiter :: (p.1 ++ delimiter :: p.2))
    (hn : ∀ i p, as i = some p → Clean i → '~' ∉ p.1) :
    ∃ d, collect [] (linesWithPrefix (run h) idr r k) = some d ∧ d.keys.Nodup ∧
      ∀ s, d.get? s = lastOf ((itemsOf h idr r).filterMap as) s := by
  rw [rrs_lines h hc, rrs_pairs k as ha hl]
  obtain ⟨d, h1, h2, h3⟩ := rrs_collect k.char ((itemsOf h idr r).filterMap as) (by
    intro p hp
    obtain ⟨i, hi, hip⟩ := List.mem_filterMap.1 hp
    obtain ⟨e, he, rfl⟩ := List.mem_map.1 hi
    exact hn _ p hip (hc e (List.mem_filter.1 he).1)) [] List.nodup_nil
  exact ⟨d, h1, h2, fun s => by rw [h3]; simp⟩

/-- Of each node the last negative acknowledgement is found, and no other. -/
theorem C116_nacks_partial (h : List Entry) (hc : ∀ e ∈ h, Clean e.item) (idr : Str) (r : Nat) :
    ∃ d, getNacks (run h) idr r = some d ∧ d.keys.Nodup ∧
      ∀ s, d.get? s = lastOf ((itemsOf h idr r).filterMap asNack) s :=
  rrs_answers h hc idr r .nack asNack (fun i => by cases i <;> simp [asNack, rrs_kind])
    (fun i p hp => by cases i <;> simp_all [asNack, lineOf]; subst hp; rfl)
    (fun i p hp hcl => by cases i <;> simp_all [asNack, Clean, IsName]; subst hp; exact hcl.1.2)

/-- Of each node the last rejection is found, and no other. -/
theorem C116_rejects_partial (h : List Entry) (hc : ∀ e ∈ h, Clean e.item) (idr : Str) (r : Nat) :
    ∃ d, getRejects (run h) idr r = some d ∧ d.keys.Nodup ∧
      ∀ s, d.get? s = lastOf ((itemsOf h idr r).filterMap asReject) s :=
  rrs_answers h hc idr r .reject asReject (fun i => by cases i <;> simp [asReject, rrs_kind])
    (fun i p hp => by cases i <;> simp_all [asReject, lineOf]; subst hp; rfl)
    (fun i p hp hcl => by cases i <;> simp_all [asReject, Clean, IsName]; subst hp; exact hcl.1.2)

/-- Of each node the last reply is found, and no other. -/
theorem C116_replies_partial (h : List Entry) (hc : ∀ e ∈ h, Clean e.item) (idr : Str) (r : Nat) :
    ∃ d, getReplies (run h) idr r = some d ∧ d.keys.Nodup ∧
      ∀ s, d.get? s = lastOf ((itemsOf h idr r).filterMap asReply) s :=
  rrs_answers h hc idr r .reply asReply (fun i => by cases i <;> simp [asReply, rrs_kind])
    (fun i p hp => by cases i <;> simp_all [asReply, lineOf]; subst hp; rfl)
    (fun i p hp hcl => by cases i <;> simp_all [asReply, Clean, IsName]; subst hp; exact hcl.1.2)

/-- Two requests of one client with answers. -/
def rrs_hist : List Entry :=
  [⟨"me".toList, 1, .request "op".toList⟩, ⟨"me".toList, 1, .ack "Alpha".toList⟩, ⟨"me".toList, 12, .request "x".toList⟩,
    ⟨"me".toList, 1, .nack "Beta".toList "why~not".toList⟩, ⟨"me".toList, 1, .reply "Alpha".toList "r1".toList⟩,
    ⟨"me".toList, 1, .reply "Alpha".toList "r2".toList⟩]

example : ∀ e ∈ rrs_hist, Clean e.item := by
  simp [rrs_hist, Clean, IsName, OneLine]; decide

example : getReplies (run rrs_hist) "me".toList 1 = some [("Alpha".toList, "r2".toList)] ∧
    getNacks (run rrs_hist) "me".toList 1 = some [("Beta".toList, "why~not".toList)] ∧
    getAcks (run rrs_hist) "me".toList 12 = [] := by
  decide +kernel

/-- Not so for all answers: the reason of a negative acknowledgement by one node can hold a line that is read as a reply of
another node, which answered nothing. -/
theorem C116_forged_reply :
    ∃ h : List Entry, (∀ e ∈ h, ∃ reason, e.item = .nack "Alpha".toList reason) ∧
      getReplies (run h) "me".toList 1 = some [("Beta".toList, "ok".toList)] :=
  ⟨[⟨"me".toList, 1, .nack "Alpha".toList "no\nR~Beta~ok".toList⟩], by simp, by decide +kernel⟩

theorem rrs_takeWhile (l : Str) (h : ',' ∉ l) : l.takeWhile (fun d => d ≠ ',') = l := by
  induction l with
  | nil => rfl
  | cons c l ih =>
    simp only [List.mem_cons, not_or] at h
    rw [List.takeWhile_cons, if_pos (by simpa using fun e => h.1 e.symm), ih h.2]

theorem rrs_second (idr : Str) (h : ',' ∉ idr) (n : Nat) : secondItem (createKey idr n) = Nat.toDigits 10 n := by
  unfold createKey
  induction idr with
  | nil =>
    show (if ',' = ',' then _ else _) = _
    rw [if_pos rfl]
    exact rrs_takeWhile _ (rrs_no_comma n)
  | cons c idr ih =>
    simp only [List.mem_cons, not_or] at h
    show (if c = ',' then _ else _) = _
    rw [if_neg (fun e => h.1 e.symm)]
    exact ih h.2

theorem rrs_keys (h : List Entry) (k : Str) : k ∈ Dict.keys (run h) ↔ ∃ e ∈ h, k = createKey e.idr e.reqId := by
  induction h using rrs_snoc with
  | h0 => simp [run, Dict.keys]
  | h1 h e ih =>
    rw [rrs_run_snoc, Dict.mem_keys]
    rw [Dict.mem_keys] at ih
    unfold add append
    rw [Dict.get?_set]
    by_cases hk : createKey e.idr e.reqId = k
    · rw [if_pos hk]
      exact ⟨fun _ => ⟨e, by simp, hk.symm⟩, fun _ => ⟨_, rfl⟩⟩
    · rw [if_neg hk, ih]
      constructor
      · rintro ⟨x, hx, e1⟩
        exact ⟨x, by simp [hx], e1⟩
      · rintro ⟨x, hx, e1⟩
        rcases List.mem_append.1 hx with hx | hx
        · exact ⟨x, hx, e1⟩
        · simp only [List.mem_singleton] at hx
          exact absurd (hx ▸ e1.symm) hk

theorem rrs_max (l : Dict Str Str) (f : Str → Nat) (m : Nat) :
    let x := l.foldl (fun m e => max m (f e.1)) m
    m ≤ x ∧ (∀ k ∈ Dict.keys l, f k ≤ x) ∧ (x = m ∨ ∃ k ∈ Dict.keys l, x = f k) := by
  induction l generalizing m with
  | nil => exact ⟨Nat.le_refl _, by simp [Dict.keys], .inl rfl⟩
  | cons e l ih =>
    obtain ⟨h1, h2, h3⟩ := ih (max m (f e.1))
    simp only [List.foldl_cons] at h1 h2 h3 ⊢
    refine ⟨by omega, fun k hk => ?_, ?_⟩
    · rcases List.mem_cons.1 hk with rfl | hk
      · omega
      · exact h2 k hk
    · rcases h3 with h3 | ⟨k, hk, h3⟩
      · rw [h3]
        by_cases hm : f e.1 ≤ m
        · left; omega
        · right; exact ⟨e.1, by simp [Dict.keys], by omega⟩
      · right; exact ⟨k, List.mem_cons_of_mem _ hk, h3⟩

/-- The last number is the greatest of those that were used, and 0 if none was, if no identifier has a comma. -/
theorem C116_last_partial (h : List Entry) (hi : ∀ e ∈ h, ',' ∉ e.idr) :
    (∀ e ∈ h, e.reqId ≤ lastReqId (run h)) ∧ (h ≠ [] → ∃ e ∈ h, e.reqId = lastReqId (run h)) ∧
      (h = [] → lastReqId (run h) = 0) := by
  have hv : ∀ e ∈ h, Nat.ofDigitChars 10 (secondItem (createKey e.idr e.reqId)) 0 = e.reqId := by
    intro e he
    rw [rrs_second _ (hi e he), Nat.ofDigitChars_ten_toDigits]
  obtain ⟨_, h2, h3⟩ := rrs_max (run h) (fun k => Nat.ofDigitChars 10 (secondItem k) 0) 0
  refine ⟨fun e he => ?_, fun hne => ?_, fun h0 => by subst h0; rfl⟩
  · have := h2 _ ((rrs_keys h _).2 ⟨e, he, rfl⟩)
    simp only [hv e he] at this
    exact this
  · rcases h3 with h3 | ⟨k, hk, h3⟩
    · obtain ⟨e, he⟩ := List.exists_mem_of_ne_nil _ hne
      have := h2 _ ((rrs_keys h _).2 ⟨e, he, rfl⟩)
      simp only [hv e he, h3] at this
      exact ⟨e, he, (by omega : e.reqId = 0).trans h3.symm⟩
    · obtain ⟨e, he, rfl⟩ := (rrs_keys h k).1 hk
      simp only [hv e he] at h3
      exact ⟨e, he, h3.symm⟩

example : lastReqId (run rrs_hist) = 12 := by decide +kernel

/-- With a comma in an identifier the last number is not one that was used. -/
theorem C116_last_wrong :
    ∃ h : List Entry, h ≠ [] ∧ ¬ ∃ e ∈ h, e.reqId = lastReqId (run h) :=
  ⟨[⟨"a,9".toList, 1, .request []⟩], by simp, by decide +kernel⟩

end Verif.Props
