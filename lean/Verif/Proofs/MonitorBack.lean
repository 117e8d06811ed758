import Verif.Proofs.MonitorBound
/-! # When there is no measurement of the throughput -/
namespace Verif.Monitor
open Verif Verif.Spec.Monitor

/-- Silent from the beginning or for long. -/
def Gone (m : Nat) (ns : List Nat) : Prop :=
  AtMost 0 ns ∨ ∃ older silence, ns = older ++ silence ∧ AtMost 0 silence ∧ m ≤ silence.length

/-- What the phase says of the windows. -/
def Tells (c : Cfg) (ns : List Nat) (m : Meas) : Prop :=
  (m.phase = .faded → Gone c.minCnt ns) ∧
  (m.phase = .idle → ∃ older silence, ns = older ++ silence ∧ AtMost 0 silence ∧ m.empty = silence.length) ∧
  (m.phase = .revival → ∃ before since, ns = before ++ since ∧ AtLeast 1 since ∧ since ≠ [] ∧ since.length = m.revWins ∧ Gone c.minCnt before)

theorem atMost_snoc {a n : Nat} {ns : List Nat} (h : AtMost a ns) (hn : n ≤ a) : AtMost a (ns ++ [n]) := by
  intro x hx
  rcases List.mem_append.mp hx with hx | hx
  · exact h x hx
  · rw [List.mem_singleton.mp hx]
    exact hn

theorem atLeast_snoc {a n : Nat} {ns : List Nat} (h : AtLeast a ns) (hn : a ≤ n) : AtLeast a (ns ++ [n]) := by
  intro x hx
  rcases List.mem_append.mp hx with hx | hx
  · exact h x hx
  · rw [List.mem_singleton.mp hx]
    exact hn

theorem gone_snoc {m : Nat} {ns : List Nat} (h : Gone m ns) : Gone m (ns ++ [0]) := by
  rcases h with h | ⟨o, s, e, hs, hl⟩
  · exact Or.inl (atMost_snoc h (Nat.le_refl _))
  · refine Or.inr ⟨o, s ++ [0], by rw [e, List.append_assoc], atMost_snoc hs (Nat.le_refl _), ?_⟩
    rw [List.length_append]
    omega

theorem tells_window {c : Cfg} {m : Meas} {ns : List Nat} (n : Nat) (ht : Tells c ns m) : Tells c (ns ++ [n]) (windowOf c m n) := by
  obtain ⟨hf, hi, hr⟩ := ht
  rcases hq : m.phase with _ | _ | _ | _
  · rcases Nat.eq_zero_or_pos n with hn | hn
    · subst hn
      rw [normal_none hq]
      exact ⟨nofun, fun _ => ⟨ns, [0], rfl, atMost_snoc (ns := []) nofun (Nat.le_refl _), rfl⟩, nofun⟩
    · rw [normal_some hq hn]
      refine ⟨fun hh => ?_, fun hh => ?_, fun hh => ?_⟩ <;>
        · rw [show _ = m.phase from rfl, hq] at hh
          nomatch hh
  · rcases Nat.eq_zero_or_pos n with hn | hn
    · subst hn
      rw [idle_none hq]
      obtain ⟨o, s, e, hs, hl⟩ := hi hq
      have e' : ns ++ [0] = o ++ (s ++ [0]) := by rw [e, List.append_assoc]
      have hs' := atMost_snoc hs (Nat.le_refl 0)
      have hl' : (s ++ [0]).length = m.empty + 1 := by rw [List.length_append, hl]; rfl
      refine ⟨fun hh => ?_, fun hh => ⟨o, _, e', hs', hl'.symm⟩, fun hh => ?_⟩
      · dsimp only at hh
        split at hh
        · exact Or.inr ⟨o, _, e', hs', by omega⟩
        · nomatch hh
      · dsimp only at hh
        split at hh <;> nomatch hh
    · rw [idle_some hq hn]
      exact ⟨nofun, nofun, nofun⟩
  · rcases Nat.eq_zero_or_pos n with hn | hn
    · subst hn
      rw [faded_none hq]
      refine ⟨fun _ => gone_snoc (hf hq), fun hh => ?_, fun hh => ?_⟩ <;>
        · rw [show _ = m.phase from rfl, hq] at hh
          nomatch hh
    · rw [faded_some hq hn]
      exact ⟨nofun, nofun, fun _ => ⟨ns, [n], rfl, atLeast_snoc (ns := []) nofun hn, nofun, rfl, hf hq⟩⟩
  · rcases Nat.eq_zero_or_pos n with hn | hn
    · subst hn
      rw [revival_none hq]
      exact ⟨nofun, fun _ => ⟨ns, [0], rfl, atMost_snoc (ns := []) nofun (Nat.le_refl _), rfl⟩, nofun⟩
    · by_cases hd : m.revWins + 1 = c.minCnt
      · rw [revival_done hq hn hd]
        exact ⟨nofun, nofun, nofun⟩
      · rw [revival_some hq hn hd]
        refine ⟨fun hh => ?_, fun hh => ?_, fun _ => ?_⟩
        · rw [show _ = m.phase from rfl, hq] at hh
          nomatch hh
        · rw [show _ = m.phase from rfl, hq] at hh
          nomatch hh
        · obtain ⟨b, s, e, hs, hne, hl, hg⟩ := hr hq
          refine ⟨b, s ++ [n], by rw [e, List.append_assoc], atLeast_snoc hs hn, by simp, ?_, hg⟩
          rw [List.length_append, hl]
          rfl

theorem tells_replay (c : Cfg) (t0 : Nat) (ns : List Nat) : Tells c ns (replay c (newMeas t0) ns) := by
  induction ns using snoc_induction with
  | nil => exact ⟨fun _ => Or.inl nofun, nofun, nofun⟩
  | snoc ns n ih =>
    rw [replay_append]
    exact tells_window n ih

/-- From the beginning there is silence. -/
theorem faded_new (c : Cfg) (t0 : Nat) {ns : List Nat} (h : AtMost 0 ns) : (replay c (newMeas t0) ns).phase = .faded := by
  induction ns using snoc_induction with
  | nil => rfl
  | snoc ns n ih =>
    have hp := ih fun x hx => h x (List.mem_append_left _ hx)
    have hn : n = 0 := Nat.le_zero.mp (h n (List.mem_append_right _ (List.mem_singleton_self n)))
    subst hn
    rw [replay_append]
    show (windowOf c _ 0).phase = _
    rw [faded_none hp]
    exact hp

/-- A silence, wherever it begins. -/
theorem silence_phase {c : Cfg} (h : c.Ok) {m : Meas} (hs : Shape c m) {ns : List Nat} (hn : AtMost 0 ns) (hne : ns ≠ []) :
    (replay c m ns).phase = .faded ∨ (replay c m ns).phase = .idle ∧ ns.length ≤ (replay c m ns).empty := by
  induction ns using snoc_induction with
  | nil => exact absurd rfl hne
  | snoc ns n ih =>
    have hz : n = 0 := Nat.le_zero.mp (hn n (List.mem_append_right _ (List.mem_singleton_self n)))
    subst hz
    rw [replay_append]
    show (windowOf c _ 0).phase = _ ∨ (windowOf c _ 0).phase = _ ∧ _ ≤ (windowOf c _ 0).empty
    have h0 := shape_replay h ns hs
    by_cases he : ns = []
    · subst he
      show (windowOf c m 0).phase = _ ∨ (windowOf c m 0).phase = _ ∧ _ ≤ (windowOf c m 0).empty
      obtain ⟨_, _, _, _, hid⟩ := hs
      rcases hq : m.phase with _ | _ | _ | _
      · rw [normal_none hq]
        exact Or.inr ⟨rfl, Nat.le_refl _⟩
      · rw [idle_none hq]
        dsimp only
        split
        · exact Or.inl rfl
        · exact Or.inr ⟨rfl, by simp⟩
      · rw [faded_none hq]
        exact Or.inl hq
      · rw [revival_none hq]
        exact Or.inr ⟨rfl, Nat.le_refl _⟩
    · rcases ih (fun x hx => hn x (List.mem_append_left _ hx)) he with hp | ⟨hp, hl⟩
      · rw [faded_none hp]
        exact Or.inl hp
      · rw [idle_none hp]
        dsimp only
        split
        · exact Or.inl rfl
        · refine Or.inr ⟨rfl, ?_⟩
          rw [List.length_append]
          simp
          exact hl

theorem gone_faded {c : Cfg} (h : c.Ok) (t0 : Nat) {ns : List Nat} (hg : Gone c.minCnt ns) : (replay c (newMeas t0) ns).phase = .faded := by
  rcases hg with hg | ⟨o, s, e, hs, hl⟩
  · exact faded_new c t0 hg
  · rw [e, replay_append]
    have h0 := shape_replay h o (shape_new c t0)
    have h1 := shape_replay h s h0
    have hne : s ≠ [] := by
      intro he
      subst he
      have := h.minCnt
      simp at hl
      omega
    rcases silence_phase h h0 hs hne with hp | ⟨hp, hle⟩
    · exact hp
    · obtain ⟨_, _, _, _, hid⟩ := h1
      have := hid hp
      omega

theorem since_revival {c : Cfg} {m : Meas} (hp : m.phase = .faded) {ns : List Nat} (hn : AtLeast 1 ns) (hne : ns ≠ []) (hl : ns.length < c.minCnt) :
    (replay c m ns).phase = .revival ∧ (replay c m ns).revWins = ns.length := by
  induction ns using snoc_induction with
  | nil => exact absurd rfl hne
  | snoc ns n ih =>
    have hn1 : 0 < n := hn n (List.mem_append_right _ (List.mem_singleton_self n))
    rw [replay_append]
    show (windowOf c _ n).phase = _ ∧ (windowOf c _ n).revWins = _
    by_cases he : ns = []
    · subst he
      show (windowOf c m n).phase = _ ∧ (windowOf c m n).revWins = _
      rw [faded_some hp hn1]
      exact ⟨rfl, rfl⟩
    · rw [List.length_append] at hl
      simp only [List.length_cons, List.length_nil] at hl
      obtain ⟨hq, hw⟩ := ih (fun x hx => hn x (List.mem_append_left _ hx)) he (by omega)
      rw [revival_some hq hn1 (by omega), List.length_append]
      refine ⟨hq, ?_⟩
      dsimp only
      rw [hw]
      rfl

/-- There is no value exactly when the instance has just come back. -/
theorem replay_none {c : Cfg} (h : c.Ok) (t0 : Nat) (ns : List Nat) : (replay c (newMeas t0) ns).thr = none ↔ Back c.minCnt ns := by
  have hs := shape_replay h ns (shape_new c t0)
  constructor
  · intro hn
    obtain ⟨_, _, _, hph, _⟩ := hs
    rcases hph with ⟨hp, _, _, hlt⟩ | ⟨_, x, hx, _⟩
    · obtain ⟨b, s, e, h1, hne, hl, hg⟩ := (tells_replay c t0 ns).2.2 hp
      exact ⟨b, s, e, h1, hne, by omega, hg⟩
    · rw [hn] at hx
      nomatch hx
  · rintro ⟨b, s, e, h1, hne, hl, hg⟩
    have hp : (replay c (newMeas t0) ns).phase = .revival := by
      rw [e, replay_append]
      exact (since_revival (gone_faded h t0 hg) h1 hne hl).1
    obtain ⟨_, _, _, hph, _⟩ := hs
    rcases hph with ⟨_, ht, _⟩ | ⟨hp', _⟩
    · exact ht
    · exact absurd hp hp'

/-- Among so many windows in a row there is one after which there is a value. -/
theorem replay_some {c : Cfg} (h : c.Ok) (t0 : Nat) (pre ns : List Nat) (hl : c.minCnt ≤ ns.length) :
    ∃ k, k < c.minCnt ∧ ∃ x, (replay c (newMeas t0) (pre ++ ns.take (k + 1))).thr = some x := by
  have h2 := h.minCnt
  have value : ∀ l, (replay c (newMeas t0) l).phase ≠ .revival → ∃ x, (replay c (newMeas t0) l).thr = some x := by
    intro l hp
    obtain ⟨_, _, _, hph, _⟩ := shape_replay h l (shape_new c t0)
    rcases hph with ⟨hp', _⟩ | ⟨_, x, hx, _⟩
    · exact absurd hp' hp
    · exact ⟨x, hx⟩
  by_cases hex : ∃ k, k < c.minCnt ∧ (replay c (newMeas t0) (pre ++ ns.take (k + 1))).phase ≠ .revival
  · obtain ⟨k, hk, hp⟩ := hex
    exact ⟨k, hk, value _ hp⟩
  · exfalso
    have hall : ∀ k, k < c.minCnt → (replay c (newMeas t0) (pre ++ ns.take (k + 1))).phase = .revival := by
      intro k hk
      by_cases hp : (replay c (newMeas t0) (pre ++ ns.take (k + 1))).phase = .revival
      · exact hp
      · exact absurd ⟨k, hk, hp⟩ hex
    have hw : ∀ k, k < c.minCnt → k + 1 ≤ (replay c (newMeas t0) (pre ++ ns.take (k + 1))).revWins := by
      intro k
      induction k with
      | zero =>
        intro hk
        obtain ⟨_, _, _, hph, _⟩ := shape_replay h (pre ++ ns.take 1) (shape_new c t0)
        rcases hph with ⟨_, _, h1, _⟩ | ⟨hp, _⟩
        · exact h1
        · exact absurd (hall 0 hk) hp
      | succ k ih =>
        intro hk
        have hw := ih (by omega)
        have hp := hall k (by omega)
        have hp' := hall (k + 1) hk
        have hlt : k + 1 < ns.length := by omega
        have e : ns.take (k + 1 + 1) = ns.take (k + 1) ++ [ns[k + 1]] := by
          rw [List.take_succ_eq_append_getElem hlt]
        rw [e, ← List.append_assoc, replay_append] at hp' ⊢
        revert hp hp' hw
        generalize replay c (newMeas t0) (pre ++ ns.take (k + 1)) = m
        intro hw hp hp'
        replace hp' : (windowOf c m ns[k + 1]).phase = .revival := hp'
        show _ ≤ (windowOf c m ns[k + 1]).revWins
        rcases Nat.eq_zero_or_pos ns[k + 1] with hz | hn
        · rw [hz, revival_none hp] at hp'
          nomatch hp'
        · by_cases hd : m.revWins + 1 = c.minCnt
          · rw [revival_done hp hn hd] at hp'
            nomatch hp'
          · rw [revival_some hp hn hd]
            dsimp only
            omega
    have h1 := hw (c.minCnt - 1) (by omega)
    have h3 := hall (c.minCnt - 1) (by omega)
    obtain ⟨_, _, _, hph, _⟩ := shape_replay h (pre ++ ns.take (c.minCnt - 1 + 1)) (shape_new c t0)
    rcases hph with ⟨_, _, _, hlt⟩ | ⟨hp, _⟩
    · omega
    · exact absurd h3 hp

end Verif.Monitor
