import Verif.Lemmas.Satellite
/-!
# C28-C30: almanac, closest ephemeris, satellite manager
-/
namespace Verif.Props.Satellite
open Verif.Utc Verif.TimeSpec Verif.Sat Verif.SatSpec

/-! ### C28 -/

/-- Adding a sequence of ephemerides to one satellite. -/
def addAll : Sat.Satellite → List Eph → Option Sat.Satellite
  | s, [] => some s
  | s, e :: es => (addEph s e).bind fun s' => addAll s' es

theorem addAll_snoc (s : Sat.Satellite) (es : List Eph) (e : Eph) :
    addAll s (es ++ [e]) = (addAll s es).bind fun s' => addEph s' e := by
  induction es generalizing s with
  | nil =>
    simp only [List.nil_append, addAll, Option.bind_some]
    cases addEph s e <;> rfl
  | cons a es ih =>
    rw [List.cons_append, addAll, addAll]
    cases addEph s a with
    | none => rfl
    | some s' => simp only [Option.bind_some]; exact ih s'

/-- **C28.** After any sequence of `addEph` calls (for this satellite) the almanac is strictly
ascending in time of ephemeris and holds, for every time of ephemeris that was added, exactly the
latest ephemeris added for it; so an ephemeris disappears only by being replaced by one with the same
time.  It never refers to another satellite. -/
theorem C28_almanac (g n : Nat) (es : List Eph) (hid : ∀ e ∈ es, e.gnss = g ∧ e.sat = n)
    (hn : ∀ e ∈ es, Norm e.toe) :
    ∃ s, addAll ⟨g, n, []⟩ es = some s ∧ s.gnss = g ∧ s.sat = n ∧ Expected es s.almanac ∧
      ∀ e ∈ s.almanac, e.gnss = g ∧ e.sat = n := by
  obtain ⟨k, hk⟩ : ∃ k, es.length = k := ⟨_, rfl⟩
  have main : ∃ s, addAll ⟨g, n, []⟩ es = some s ∧ s.gnss = g ∧ s.sat = n ∧ Expected es s.almanac := by
    induction k generalizing es with
    | zero =>
      rw [List.length_eq_zero_iff] at hk; subst hk
      exact ⟨_, rfl, rfl, rfl, expected_nil⟩
    | succ k ih =>
      rcases List.eq_nil_or_concat es with rfl | ⟨es, x, rfl⟩
      · simp at hk
      rw [List.concat_eq_append] at hk hid hn ⊢
      obtain ⟨s, h1, h2, h3, h4⟩ := ih es (fun e he => hid e (by simp [he])) (fun e he => hn e (by simp [he]))
        (by simpa using hk)
      obtain ⟨x1, x2⟩ := hid x (by simp)
      refine ⟨{ s with almanac := insertEph x s.almanac }, ?_, h2, h3, ?_⟩
      · rw [addAll_snoc, h1, Option.bind_some]
        unfold addEph
        rw [if_neg (by simp [x1, h2]), if_neg (by simp [x2, h3])]
      · exact expected_snoc es s.almanac x (fun e he => hn e (by simp [he])) (hn x (by simp)) h4
  obtain ⟨s, h1, h2, h3, h4⟩ := main
  exact ⟨s, h1, h2, h3, h4, fun e he => hid e (latest_mem ((h4.2 e).1 he))⟩

/-- **C28.** An ephemeris of another satellite or system is refused (the program stops). -/
theorem C28_foreign_refused (s : Sat.Satellite) (e : Eph) (h : e.gnss ≠ s.gnss ∨ e.sat ≠ s.sat) :
    addEph s e = none := by
  unfold addEph
  by_cases h1 : e.gnss = s.gnss
  · rw [if_neg (by simp [h1]), if_pos (by tauto)]
  · rw [if_pos h1]

/-- Out-of-order insertion and replacement. -/
example : (addAll ⟨0, 7, []⟩ [⟨0, 7, ⟨200, 0⟩, 1⟩, ⟨0, 7, ⟨100, 0⟩, 2⟩, ⟨0, 7, ⟨200, 0⟩, 3⟩]).map
    Sat.Satellite.almanac = some [⟨0, 7, ⟨100, 0⟩, 2⟩, ⟨0, 7, ⟨200, 0⟩, 3⟩] := by decide +kernel

/-! ### C29 -/

/-- **C29.** For every almanac built by `addEph` and every query time, the ephemeris returned is
stored and no stored one is closer in time. -/
theorem C29_closest (g n : Nat) (es : List Eph) (s : Sat.Satellite) (hs : addAll ⟨g, n, []⟩ es = some s)
    (hid : ∀ e ∈ es, e.gnss = g ∧ e.sat = n)
    (hne : es ≠ []) (hn : ∀ e ∈ es, Norm e.toe ∧ Moderate e.toe) (t : Time) (ht : Norm t) (mt : Moderate t) :
    ∃ e, findClosestEphemeris s t = some e ∧ e ∈ s.almanac ∧
      ∀ e' ∈ s.almanac, (instant t - instant e.toe).natAbs ≤ (instant t - instant e'.toe).natAbs := by
  obtain ⟨s', h1, _, _, h4, _⟩ := C28_almanac g n es hid (fun e he => (hn e he).1)
  rw [hs] at h1
  simp only [Option.some.injEq] at h1
  subst h1
  have hna : s.almanac ≠ [] := by
    rcases List.eq_nil_or_concat es with rfl | ⟨es, x, rfl⟩
    · exact absurd rfl hne
    · rw [List.concat_eq_append] at h4
      have : x ∈ s.almanac := (h4.2 x).2 ⟨es, [], rfl, by simp⟩
      intro hc; rw [hc] at this; simp at this
  have hnm : ∀ e ∈ s.almanac, Norm e.toe ∧ Moderate e.toe := fun e he => hn e (latest_mem ((h4.2 e).1 he))
  have hsr : s.almanac.reverse.Pairwise fun a b => instant b.toe < instant a.toe := by
    rw [List.pairwise_reverse]; exact h4.1
  unfold findClosestEphemeris
  rw [if_neg hna]
  cases hr : s.almanac.reverse with
  | nil => rw [List.reverse_eq_nil_iff] at hr; exact absurd hr hna
  | cons a l =>
    have hmem : ∀ e, e ∈ s.almanac ↔ e ∈ a :: l := fun e => by rw [← hr, List.mem_reverse]
    rw [hr, List.pairwise_cons] at hsr
    obtain ⟨d, d1, d2⟩ := sub_dist t a ht (hnm a ((hmem a).2 (by simp))).1 mt (hnm a ((hmem a).2 (by simp))).2
    obtain ⟨r, r1, r2, r3, r4⟩ := closestLoop_spec t ht mt l (fun e he => hnm e ((hmem e).2 (by simp [he])))
      hsr.2 a hsr.1
    refine ⟨r, ?_, ?_, ?_⟩
    · rw [closestLoop]
      simp only [d1, d2, Option.bind_eq_bind, Option.bind_some, r1]
    · rw [hmem]; rcases r2 with r2 | r2 <;> simp [r2]
    · intro e' he'
      rcases List.mem_cons.1 ((hmem e').1 he') with h | h
      · rw [h]; exact r3
      · exact r4 e' h

/-- A middle element is found. -/
example : (findClosestEphemeris ⟨0, 7, [⟨0, 7, ⟨100, 0⟩, 1⟩, ⟨0, 7, ⟨200, 0⟩, 2⟩, ⟨0, 7, ⟨300, 0⟩, 3⟩]⟩ ⟨190, 5⟩).map
    Eph.data = some 2 := by decide +kernel

/-- **C29.** An empty almanac has no closest ephemeris (the program stops). -/
theorem C29_empty (g n : Nat) (t : Time) : findClosestEphemeris ⟨g, n, []⟩ t = none := by
  simp [findClosestEphemeris]

/-! ### C30 -/

def listOf (m : Manager) : Const → List Sat.Satellite
  | .gps => m.gps
  | .glo => m.glo
  | .gal => m.gal

theorem ephCb_some {m m' : Manager} {c : Const} {e : Eph} (h : ephCb m c e = some m') :
    ∀ c', addEphTo e (listOf m c) = some (listOf m' c) ∧ (c' ≠ c → listOf m' c' = listOf m c') := by
  intro c'
  cases c <;> simp only [ephCb, Option.map_eq_some_iff] at h <;> obtain ⟨l, h1, rfl⟩ := h <;>
    refine ⟨h1, fun hc => ?_⟩ <;> cases c' <;> first | rfl | exact absurd rfl hc

theorem runCbs_spec (m : Manager) (h : List (Const × Eph)) (H : ∀ c, ∃ l, runL (listOf m c) (deliveredTo c h) = some l) :
    ∃ m', runCbs m h = some m' ∧ ∀ c, runL (listOf m c) (deliveredTo c h) = some (listOf m' c) := by
  induction h generalizing m with
  | nil => exact ⟨m, rfl, fun c => rfl⟩
  | cons p h ih =>
    obtain ⟨c, e⟩ := p
    have hd : ∀ c', deliveredTo c' ((c, e) :: h) = if c = c' then e :: deliveredTo c' h else deliveredTo c' h := by
      intro c'
      unfold deliveredTo
      by_cases hc : c = c' <;> simp [hc]
    obtain ⟨l, hl⟩ := H c
    rw [hd c, if_pos rfl, runL] at hl
    cases ha : addEphTo e (listOf m c) with
    | none => rw [ha] at hl; simp at hl
    | some l1 =>
      have hm : ∃ m1, ephCb m c e = some m1 := by
        cases c <;> simp only [listOf] at ha <;> simp [ephCb, ha]
      obtain ⟨m1, hm1⟩ := hm
      have hs := ephCb_some hm1
      have key : ∀ c', runL (listOf m c') (deliveredTo c' ((c, e) :: h)) = runL (listOf m1 c') (deliveredTo c' h) := by
        intro c'
        rw [hd c']
        by_cases hc : c = c'
        · subst hc
          rw [if_pos rfl, runL, (hs c).1]; rfl
        · rw [if_neg hc, (hs c').2 (Ne.symm hc)]
      obtain ⟨m', r1, r2⟩ := ih m1 (fun c' => by rw [← key c']; exact H c')
      refine ⟨m', ?_, fun c' => by rw [key c']; exact r2 c'⟩
      rw [runCbs, hm1]; exact r1

/-- **C30.** After any sequence of ephemeris callbacks, for each constellation separately:
`getSat` finds exactly the ids tracked by a first-in-first-out memory of 29 ids, and the satellite
found carries the requested ids and exactly the ephemerides delivered for it since it was
discovered.  Deliveries for one constellation have no influence on the others. -/
theorem C30_manager (h : List (Const × Eph)) (hg : ∀ p ∈ h, p.2.gnss = gnssOf p.1) (hn : ∀ p ∈ h, Norm p.2.toe) :
    ∃ m, runCbs Manager.init h = some m ∧ ∀ (c : Const) (n : Nat),
      (n ∉ present ((deliveredTo c h).map Eph.sat) → getSat m (gnssOf c) n = .unknown) ∧
      (n ∈ present ((deliveredTo c h).map Eph.sat) → ∃ s, getSat m (gnssOf c) n = .found s ∧
        s.gnss = gnssOf c ∧ s.sat = n ∧ TrackedSince (deliveredTo c h) s) := by
  have hmem : ∀ c e, e ∈ deliveredTo c h → (c, e) ∈ h := by
    intro c e he
    unfold deliveredTo at he
    obtain ⟨p, hp, rfl⟩ := List.mem_map.1 he
    obtain ⟨h1, h2⟩ := List.mem_filter.1 hp
    simp at h2; rw [← h2]; exact h1
  have S := fun c => runL_spec (gnssOf c) (deliveredTo c h) (fun e he => hg _ (hmem c e he))
    (fun e he => hn _ (hmem c e he))
  have hinit : ∀ c, listOf Manager.init c = [] := by intro c; cases c <;> rfl
  obtain ⟨m, m1, m2⟩ := runCbs_spec Manager.init h (fun c => by
    rw [hinit]; obtain ⟨l, hl, _⟩ := S c; exact ⟨l, hl⟩)
  refine ⟨m, m1, fun c n => ?_⟩
  obtain ⟨l, l1, l2, l3⟩ := S c
  have hl : l = listOf m c := by
    have := m2 c
    rw [hinit, l1] at this
    simpa using this
  have hget : getSat m (gnssOf c) n = match find n l with | none => .unknown | some s => .found s := by
    rw [hl]; cases c <;> rfl
  have hnd : (l.map Sat.Satellite.sat).Nodup := l2 ▸ present_nodup _
  rw [hget, ← l2]
  refine ⟨fun hnp => ?_, fun hp => ?_⟩
  · rw [find_none.2 hnp]
  · obtain ⟨s, hs, rfl⟩ := List.mem_map.1 hp
    rw [find_eq hnd hs]
    exact ⟨s, rfl, (l3 s hs).1, rfl, (l3 s hs).2⟩

theorem discoveries_few (ids : List Nat) (hk : ids.dedup.length ≤ 29) :
    (∀ n, n ∈ discoveries ids ↔ n ∈ ids) ∧ (discoveries ids).length ≤ 29 ∧ (discoveries ids).Nodup := by
  obtain ⟨k, hlen⟩ : ∃ k, ids.length = k := ⟨_, rfl⟩
  induction k generalizing ids with
  | zero => rw [List.length_eq_zero_iff] at hlen; subst hlen; simp [discoveries]
  | succ k ih =>
    rcases List.eq_nil_or_concat ids with rfl | ⟨l, x, rfl⟩
    · simp at hlen
    rw [List.concat_eq_append] at hlen hk ⊢
    have hsub : l.dedup.length ≤ 29 := by
      refine le_trans ?_ hk
      refine List.Subperm.length_le ((List.nodup_dedup l).subperm ?_)
      intro y hy; rw [List.mem_dedup] at hy ⊢; simp [hy]
    obtain ⟨i1, i2, i3⟩ := ih l hsub (by simpa using hlen)
    have hlast : lastN 29 (discoveries l) = discoveries l := by
      unfold lastN; rw [Nat.sub_eq_zero_of_le i2]; rfl
    rw [discoveries_snoc, hlast]
    have nd : ∀ hx : x ∉ discoveries l, (discoveries l ++ [x]).Nodup := by
      intro hx
      rw [List.nodup_append]
      refine ⟨i3, by simp, ?_⟩
      intro a ha b hb; simp at hb; subst hb; rintro rfl; exact hx ha
    split
    · rename_i hx
      refine ⟨fun n => ?_, i2, i3⟩
      rw [i1, List.mem_append, List.mem_singleton]
      constructor
      · exact Or.inl
      · rintro (h | rfl)
        · exact h
        · exact (i1 n).1 hx
    · rename_i hx
      refine ⟨fun n => ?_, ?_, nd hx⟩
      · rw [List.mem_append, List.mem_append, i1]
      · refine le_trans ?_ hk
        refine List.Subperm.length_le ((nd hx).subperm ?_)
        intro y hy
        rw [List.mem_dedup]
        rw [List.mem_append] at hy ⊢
        rcases hy with hy | hy
        · exact Or.inl ((i1 y).1 hy)
        · exact Or.inr hy

/-- **C30.** While at most 29 different satellites of a constellation have been heard, none is
lost: `getSat` finds exactly the ids delivered, each with the latest ephemeris for every time of
ephemeris delivered for it. -/
theorem C30_no_eviction (h : List (Const × Eph)) (hg : ∀ p ∈ h, p.2.gnss = gnssOf p.1) (hn : ∀ p ∈ h, Norm p.2.toe)
    (c : Const) (hfew : ((deliveredTo c h).map Eph.sat).dedup.length ≤ 29) :
    ∃ m, runCbs Manager.init h = some m ∧ ∀ n,
      (n ∉ (deliveredTo c h).map Eph.sat → getSat m (gnssOf c) n = .unknown) ∧
      (n ∈ (deliveredTo c h).map Eph.sat → ∃ s, getSat m (gnssOf c) n = .found s ∧
        s.gnss = gnssOf c ∧ s.sat = n ∧ Expected ((deliveredTo c h).filter fun e => e.sat = n) s.almanac) := by
  obtain ⟨m, m1, m2⟩ := C30_manager h hg hn
  refine ⟨m, m1, fun n => ?_⟩
  have hp : ∀ ids : List Nat, ids.dedup.length ≤ 29 → ∀ n, n ∈ present ids ↔ n ∈ ids := by
    intro ids hk n
    obtain ⟨i1, i2, _⟩ := discoveries_few ids hk
    unfold present lastN
    rw [Nat.sub_eq_zero_of_le i2, List.drop_zero, i1]
  obtain ⟨a, b⟩ := m2 c n
  rw [hp _ hfew] at a b
  refine ⟨a, fun hx => ?_⟩
  obtain ⟨s, s1, s2, s3, h₁, e, h₂, t1, t2, t3, _, t5⟩ := b hx
  refine ⟨s, s1, s2, s3, ?_⟩
  rw [t1] at hfew
  have h₁few : (h₁.map Eph.sat).dedup.length ≤ 29 := by
    refine le_trans ?_ hfew
    refine List.Subperm.length_le ((List.nodup_dedup _).subperm ?_)
    intro y hy; rw [List.mem_dedup] at hy ⊢; rw [List.map_append]; exact List.mem_append_left _ hy
  rw [hp _ h₁few] at t3
  rw [t1, List.filter_append]
  have : h₁.filter (fun e => e.sat = n) = [] := by
    rw [List.filter_eq_nil_iff]
    intro y hy hc
    simp at hc
    exact t3 (by rw [s3, ← hc]; exact List.mem_map_of_mem hy)
  rw [this, List.nil_append, ← s3]; exact t5

/-- **C30.** Systems without a table are reported as such. -/
theorem C30_unsupported (m : Manager) (g n : Nat) (h : g ≠ 0 ∧ g ≠ 2 ∧ g ≠ 6) : getSat m g n = .unsupported := by
  obtain ⟨h0, h2, h6⟩ := h
  unfold getSat
  split
  · exact absurd rfl h0
  · exact absurd rfl h6
  · exact absurd rfl h2
  · rfl

/-- The same satellite number in two constellations. -/
example : ((runCbs Manager.init [(.gps, ⟨0, 5, ⟨10, 0⟩, 1⟩), (.glo, ⟨6, 5, ⟨20, 0⟩, 2⟩), (.gps, ⟨0, 5, ⟨5, 0⟩, 3⟩)]).map
    fun m => (getSat m 0 5, getSat m 6 5, getSat m 2 5))
    = some (.found ⟨0, 5, [⟨0, 5, ⟨5, 0⟩, 3⟩, ⟨0, 5, ⟨10, 0⟩, 1⟩]⟩, .found ⟨6, 5, [⟨6, 5, ⟨20, 0⟩, 2⟩]⟩, .unknown) := by
  decide +kernel

/-- The 30th satellite evicts the first one heard (there are 31 GPS satellites in use). -/
example : ((runCbs Manager.init ((List.range 30).map fun i => (.gps, ⟨0, i + 1, ⟨10, 0⟩, i⟩))).map
    fun m => (getSat m 0 1, getSat m 0 30 == .unknown)) = some (.unknown, false) := by
  decide +kernel

end Verif.Props.Satellite
