import Verif.Spec.Channel
/-!
# C120: channels and routers
-/
namespace Verif.Props
open Verif.Channel Verif.Spec.Channel Verif

theorem chn_puts (l : List Msg) (s : State) :
    l.foldl State.put s = { s with queue := s.queue ++ l, puts := s.puts ++ l } := by
  induction l generalizing s with
  | nil => simp
  | cons m l ih => rw [List.foldl_cons, ih]; simp [State.put]

theorem chn_subs (l : List Handler) (s : State) : l.foldl State.subscribe s = { s with subs := s.subs ++ l } := by
  induction l generalizing s with
  | nil => simp
  | cons m l ih => rw [List.foldl_cons, ih]; simp [State.subscribe]

/-- What the handlers put in turn. -/
def chn_replies (reply : Handler → Msg → List Msg) (m : Msg) (l : List Handler) : List Msg := l.flatMap (fun x => reply x m)

theorem chn_calls (reply : Handler → Msg → List Msg) (m : Msg) (l : List Handler) (s : State) :
    l.foldl (State.call reply m) s =
      { s with
        queue := s.queue ++ chn_replies reply m l
        puts := s.puts ++ chn_replies reply m l
        got := s.got ++ l.map (fun x => (x, m)) } := by
  induction l generalizing s with
  | nil => simp [chn_replies]
  | cons x l ih =>
    rw [List.foldl_cons, ih]
    simp [State.call, chn_puts, chn_replies]

theorem chn_service (reply : Handler → Msg → List Msg) (n : Nat) (s : State) (d : List Msg) (hp : s.puts = d ++ s.queue)
    (hg : s.got = calls s.subs d) :
    (s.service reply n).2.subs = s.subs ∧ s.puts <+: (s.service reply n).2.puts ∧
      (s.service reply n).1 ≤ n ∧ ((s.service reply n).1 = n ∨ (s.service reply n).2.queue = []) ∧
      ∃ d', d'.length = (s.service reply n).1 ∧ (s.service reply n).2.puts = d ++ d' ++ (s.service reply n).2.queue ∧
        (s.service reply n).2.got = calls s.subs (d ++ d') := by
  induction n generalizing s d with
  | zero => exact ⟨rfl, List.prefix_refl _, Nat.le_refl _, .inl rfl, [], rfl, by simpa [State.service] using hp,
      by simpa [State.service] using hg⟩
  | succ n ih =>
    unfold State.service
    cases hq : s.queue with
    | nil =>
      refine ⟨rfl, List.prefix_refl _, Nat.zero_le _, .inr hq, [], rfl, ?_, ?_⟩
      · simpa using hp
      · simpa using hg
    | cons m q =>
      simp only
      have hs : State.notify reply { s with queue := q } m =
          { s with
            queue := q ++ chn_replies reply m s.subs
            puts := s.puts ++ chn_replies reply m s.subs
            got := s.got ++ s.subs.map (fun x => (x, m)) } := by
        unfold State.notify
        rw [chn_calls]
      rw [hs]
      obtain ⟨i1, i2, i3, i4, d', i5, i6, i7⟩ := ih
        { s with
          queue := q ++ chn_replies reply m s.subs
          puts := s.puts ++ chn_replies reply m s.subs
          got := s.got ++ s.subs.map (fun x => (x, m)) } (d ++ [m]) (by simp [hp, hq]) (by simp [hg, calls])
      refine ⟨i1, (List.prefix_append _ _).trans i2, by omega, i4.imp (by omega) id, m :: d', by simp [i5], ?_, ?_⟩
      · simpa using i6
      · simpa using i7

theorem chn_snoc {α : Type} {P : List α → Prop} (h0 : P []) (h1 : ∀ l a, P l → P (l ++ [a])) (l : List α) : P l := by
  suffices H : ∀ k, ∀ l : List α, l.length = k → P l from H _ l rfl
  intro k
  induction k with
  | zero => intro l hl; rw [List.length_eq_zero_iff.1 hl]; exact h0
  | succ k ih =>
    intro l hl
    rcases List.eq_nil_or_concat l with rfl | ⟨l', a, h⟩
    · simp at hl
    · rw [List.concat_eq_append] at h
      subst h
      exact h1 _ _ (ih l' (by simpa using hl))

theorem chn_outside_append (h g : List Op) : outside (h ++ g) = outside h ++ outside g := by
  induction h with
  | nil => rfl
  | cons o h ih => cases o <;> simp [outside, ih]

/-- Messages are handed on in the order in which they were put, each once and to every subscriber, and what was not handed on is
still there; nothing put from outside is lost or overtaken. -/
theorem C120_order (reply : Handler → Msg → List Msg) (subs : List Handler) (h : List Op) :
    (run reply subs h).subs = subs ∧ (outside h).Sublist (run reply subs h).puts ∧
      ∃ d, (run reply subs h).puts = d ++ (run reply subs h).queue ∧ (run reply subs h).got = calls subs d := by
  induction h using chn_snoc with
  | h0 =>
    simp only [run, List.foldl_nil, chn_subs]
    exact ⟨rfl, List.Sublist.refl _, [], rfl, rfl⟩
  | h1 h o ih =>
    obtain ⟨i1, i2, d, i3, i4⟩ := ih
    have hr : run reply subs (h ++ [o]) = step reply (run reply subs h) o := by simp [run, List.foldl_append]
    rw [hr, chn_outside_append]
    generalize run reply subs h = s at *
    cases o with
    | put m =>
      refine ⟨i1, ?_, d, ?_, i4⟩
      · exact List.Sublist.append i2 (List.Sublist.refl [m])
      · simp [step, State.put, i3]
    | service n =>
      obtain ⟨k1, k2, _, _, d', _, k6, k7⟩ := chn_service reply n s d i3 (by rw [i1]; exact i4)
      refine ⟨k1.trans i1, ?_, d ++ d', k6, by rw [i1] at k7; exact k7⟩
      rw [show outside [.service n] = [] from rfl, List.append_nil]
      exact i2.trans k2.sublist

/-- If handlers put nothing, exactly what was put from outside is handed on. -/
theorem C120_exactly (subs : List Handler) (h : List Op) : (run (fun _ _ => []) subs h).puts = outside h := by
  induction h using chn_snoc with
  | h0 =>
    simp only [run, List.foldl_nil, chn_subs]
    rfl
  | h1 h o ih =>
    have hr : run (fun _ _ => []) subs (h ++ [o]) = step (fun _ _ => []) (run (fun _ _ => []) subs h) o := by
      simp [run, List.foldl_append]
    rw [hr, chn_outside_append]
    generalize run (fun _ _ => []) subs h = s at *
    cases o with
    | put m => simp [step, State.put, ih, outside]
    | service n =>
      rw [show outside [.service n] = [] from rfl, List.append_nil, ← ih]
      clear ih hr
      simp only [step]
      induction n generalizing s with
      | zero => rfl
      | succ n ihn =>
        unfold State.service
        cases hq : s.queue with
        | nil => rfl
        | cons m q =>
          simp only
          rw [ihn]
          unfold State.notify
          rw [chn_calls]
          simp [chn_replies]

/-- A service hands on as many messages as it says, no more than its limit, and fewer only if nothing is left. -/
theorem C120_service (reply : Handler → Msg → List Msg) (subs : List Handler) (h : List Op) (n : Nat) :
    let s := run reply subs h
    let r := s.service reply n
    r.1 ≤ n ∧ (r.1 = n ∨ r.2.queue = []) ∧ ∃ d, d.length = r.1 ∧ r.2.got = s.got ++ calls subs d ∧ d <+: r.2.puts.drop
      (s.puts.length - s.queue.length) := by
  intro s r
  obtain ⟨i1, _, d, i3, i4⟩ := C120_order reply subs h
  obtain ⟨_, _, k3, k4, d', k5, k6, k7⟩ := chn_service reply n s d i3 (by rw [i1]; exact i4)
  refine ⟨k3, k4, d', k5, ?_, ?_⟩
  · show r.2.got = s.got ++ calls subs d'
    rw [show r.2.got = calls s.subs (d ++ d') from k7, show s.got = calls subs d from i4, show s.subs = subs from i1]
    simp [calls]
  · have hl : s.puts.length - s.queue.length = d.length := by
      rw [show s.puts = d ++ s.queue from i3, List.length_append]
      omega
    rw [hl, show r.2.puts = d ++ d' ++ r.2.queue from k6, List.append_assoc, List.drop_left]
    exact List.prefix_append _ _

/-- Two subscribers, of which one answers message 1 with message 9. -/
example : (run (fun x m => if x = 7 ∧ m = 1 then [9] else []) [7, 8] [.put 1, .put 2, .service 2, .put 3, .service 1]) =
    { subs := [7, 8], queue := [3], puts := [1, 2, 9, 3], got := [(7, 1), (8, 1), (7, 2), (8, 2), (7, 9), (8, 9)] } := by
  decide

/-! ### Routers -/

/-- A message goes to the handler of the first route whose type it has, and to no other. -/
theorem C120_first (isA : Msg → Typ → Bool) (strict : Bool) (r : Routes) (m : Msg) (x : Handler) :
    process isA strict r m = .handled x ↔
      ∃ r1 t r2, r = r1 ++ (t, x) :: r2 ∧ isA m t = true ∧ ∀ e ∈ r1, isA m e.1 = false := by
  have hf : findHandler isA r m = some x ↔
      ∃ r1 t r2, r = r1 ++ (t, x) :: r2 ∧ isA m t = true ∧ ∀ e ∈ r1, isA m e.1 = false := by
    induction r with
    | nil => simp [findHandler]
    | cons e r ih =>
      obtain ⟨t, y⟩ := e
      unfold findHandler
      by_cases ht : isA m t = true
      · rw [if_pos ht]
        constructor
        · intro h
          cases h
          exact ⟨[], t, r, rfl, ht, fun _ h => by cases h⟩
        · rintro ⟨r1, t', r2, h1, h2, h3⟩
          cases r1 with
          | nil => cases h1; rfl
          | cons e1 r1 =>
            simp only [List.cons_append, List.cons.injEq] at h1
            have := h3 e1 (by simp)
            rw [← h1.1] at this
            simp only at this
            rw [ht] at this
            cases this
      · rw [if_neg ht, ih]
        constructor
        · rintro ⟨r1, t', r2, h1, h2, h3⟩
          refine ⟨(t, y) :: r1, t', r2, by rw [h1]; rfl, h2, fun e he => ?_⟩
          rcases List.mem_cons.1 he with rfl | he
          · simpa using ht
          · exact h3 e he
        · rintro ⟨r1, t', r2, h1, h2, h3⟩
          cases r1 with
          | nil => cases h1; exact absurd h2 ht
          | cons e1 r1 =>
            simp only [List.cons_append, List.cons.injEq] at h1
            exact ⟨r1, t', r2, h1.2, h2, fun e he => h3 e (by simp [he])⟩
  rw [← hf]
  unfold process
  cases findHandler isA r m with
  | some y => simp
  | none => cases strict <;> simp

/-- An exception is raised exactly by a strict router without a route for the message. -/
theorem C120_unhandled (isA : Msg → Typ → Bool) (strict : Bool) (r : Routes) (m : Msg) :
    (process isA strict r m = .raised ↔ strict = true ∧ ∀ e ∈ r, isA m e.1 = false) ∧
      (process isA strict r m = .ignored ↔ strict = false ∧ ∀ e ∈ r, isA m e.1 = false) := by
  have hf : findHandler isA r m = none ↔ ∀ e ∈ r, isA m e.1 = false := by
    induction r with
    | nil => simp [findHandler]
    | cons e r ih =>
      obtain ⟨t, y⟩ := e
      unfold findHandler
      by_cases ht : isA m t = true
      · simp [ht]
      · rw [if_neg ht, ih]
        simp [ht]
  rw [← hf]
  unfold process
  cases findHandler isA r m with
  | some y => simp
  | none => cases strict <;> simp

theorem chn_router_snoc (l : List (Typ × Handler)) (e : Typ × Handler) : router (l ++ [e]) = add (router l) e.1 e.2 := by
  simp [router, List.foldl_append]

theorem chn_last_snoc (l : List (Typ × Handler)) (t : Typ) (x : Handler) (u : Typ) :
    lastAdded (l ++ [(t, x)]) u = if t = u then some x else lastAdded l u := by
  induction l with
  | nil => simp [lastAdded]
  | cons e l ih =>
    obtain ⟨t', x'⟩ := e
    rw [List.cons_append, lastAdded, ih, lastAdded]
    split <;> simp

theorem chn_router_get (l : List (Typ × Handler)) (u : Typ) : Dict.get? (router l) u = lastAdded l u := by
  induction l using chn_snoc with
  | h0 => rfl
  | h1 l e ih =>
    obtain ⟨t, x⟩ := e
    rw [chn_router_snoc, chn_last_snoc]
    unfold add
    rw [Dict.get?_set, ih]

theorem chn_router_nodup (l : List (Typ × Handler)) : (Dict.keys (router l)).Nodup := by
  induction l using chn_snoc with
  | h0 => exact List.nodup_nil
  | h1 l e ih => rw [chn_router_snoc]; exact Dict.nodup_keys_set ih _ _

/-- If a message has one type only of those added, it goes to the handler that was last added for it, in whatever order handlers
of other types were added. -/
theorem C120_added_partial (isA : Msg → Typ → Bool) (strict : Bool) (l : List (Typ × Handler)) (m : Msg) (t : Typ) (x : Handler)
    (ht : isA m t = true) (hx : lastAdded l t = some x) (ho : ∀ u, isA m u = true → lastAdded l u ≠ none → u = t) :
    process isA strict (router l) m = .handled x := by
  rw [C120_first]
  have hg : Dict.get? (router l) t = some x := by rw [chn_router_get, hx]
  obtain ⟨r1, r2, hr⟩ := List.append_of_mem (Dict.mem_of_get? hg)
  have hn := chn_router_nodup l
  refine ⟨r1, t, r2, hr, ht, fun e he => ?_⟩
  cases hc : isA m e.1 with
  | false => rfl
  | true =>
    exfalso
    have hm : e ∈ router l := by rw [hr]; exact List.mem_append_left _ he
    have hge := Dict.get?_of_mem hn (k := e.1) (v := e.2) hm
    have het := ho e.1 hc (by rw [← chn_router_get, hge]; simp)
    rw [hr] at hn
    simp only [Dict.keys, List.map_append, List.map_cons] at hn
    exact (List.nodup_append.1 hn).2.2 e.1 (List.mem_map_of_mem he) t (by simp) het

example : process (fun m t => m % 10 == t) true (router [(1, 5), (2, 6), (1, 7)]) 41 = .handled 7 := by decide

/-- A message with two of the types goes to the type added first, also if the other one is the narrower. -/
theorem C120_broad_first :
    ∃ (isA : Msg → Typ → Bool) (l : List (Typ × Handler)) (m : Msg) (broad narrow : Typ) (x : Handler),
      (∀ n, isA n narrow = true → isA n broad = true) ∧ isA m narrow = true ∧ lastAdded l narrow = some x ∧
      process isA true (router l) m ≠ .handled x :=
  ⟨fun m t => t == 0 || m == t, [(0, 5), (1, 6)], 1, 0, 1, 6, by intro n _; rfl, by decide, by decide, by decide⟩

end Verif.Props
