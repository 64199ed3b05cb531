import Verif.Lemmas.EstimatorFaithful
import Verif.Props.Satellite
import Verif.Props.Time
/-!
# C35-C39: the delayed-measurement estimator (core/ekf/rtk_ekf_estimator.*)
-/
namespace Verif.Props.Estimator
open Verif.Est Verif.Sat
variable {σ υ ζ : Type}

/-! ### The clock used by the model -/

/-- The model compares instants in nanoseconds.  For normalised times within the range where
differences do not overflow these are the results of the modelled `UTCTime`/`QuantizedTime`
operators, and `t - 1.0` is the instant one second earlier. -/
theorem clock_bridge (a b : Utc.Time) (ha : TimeSpec.Norm a) (hb : TimeSpec.Norm b)
    (ma : TimeSpec.Moderate a) (mb : TimeSpec.Moderate b) :
    Utc.lt a b = decide (TimeSpec.instant a < TimeSpec.instant b) ∧
    Utc.gt a b = decide (TimeSpec.instant a > TimeSpec.instant b) ∧
    Utc.eq a b = decide (TimeSpec.instant a = TimeSpec.instant b) ∧
    Utc.ltq a b = some (decide (TimeSpec.instant b - TimeSpec.instant a > HALF)) ∧
    Utc.gtq a b = some (decide (TimeSpec.instant a - TimeSpec.instant b > HALF)) ∧
    Utc.qlt a b = some (decide (TimeSpec.instant b - TimeSpec.instant a > HALF)) ∧
    (∀ d, Utc.subSec a 1 = some d → TimeSpec.instant d = TimeSpec.instant a - MAX_DELAY) := by
  have h1 := Time.C05_compare_partial a b ha hb
  obtain ⟨a1, a2⟩ := ma
  obtain ⟨b1, b2⟩ := mb
  have h2 := Time.C10_quantised_compare a b ha hb ⟨by omega, by omega⟩
  have h3 := Time.C10_quantised_compare b a hb ha ⟨by omega, by omega⟩
  refine ⟨?_, ?_, ?_, ?_, ?_, ?_, ?_⟩
  · rw [Bool.eq_iff_iff, decide_eq_true_eq]; exact h1.1
  · rw [Bool.eq_iff_iff, decide_eq_true_eq]; exact h1.2.1
  · rw [Bool.eq_iff_iff, decide_eq_true_eq]; exact h1.2.2.1
  · rw [h3.2.2.2.2.2.2.2.1, h3.1]; rfl
  · rw [h3.2.2.2.2.2.2.1, h3.2.1]; rfl
  · rw [h2.2.1]; rfl
  · intro d hd
    have h4 : Utc.subSec a 1 = Utc.wrapNsec ⟨a.sec - 1, a.nsec⟩ := by
      have e1 : Utc.trunc ((1 : ℚ) * 1000000000) = 1000000000 := by norm_num [Utc.trunc]
      have e2 : Utc.trunc (1 : ℚ) = 1 := by norm_num [Utc.trunc]
      have e3 : Utc.i64 1000000000 = some 1000000000 := by decide
      have e4 : Utc.i64 (a.nsec - 0) = some (a.nsec - 0) := by
        obtain ⟨n1, n2⟩ := ha
        unfold Utc.i64
        rw [if_pos (by omega)]
      have e5 : Utc.i64 (a.sec - 1) = some (a.sec - 1) := by
        unfold Utc.i64
        rw [if_pos (by omega)]
      have e6 : (1000000000 : Int).tmod Utc.E9 = 0 := by decide
      unfold Utc.subSec
      rw [e1, e3, Option.bind_eq_bind, Option.bind_some, e6, e4, Option.bind_some, e2, e5,
        Option.bind_some, sub_zero]
    rw [h4] at hd
    rw [Utc.wrap_instant hd]
    simp only [TimeSpec.instant, MAX_DELAY]
    omega

/-! ### C39 -/

/-- **C39.** `Meas::operator<` is a strict weak order: irreflexive, transitive, and incomparability
is an equivalence, namely "same time and same kind". -/
theorem C39_strict_weak_order (a b c : Meas υ ζ) :
    a.lt a = false ∧ (a.lt b = true → b.lt c = true → a.lt c = true) ∧
    ((a.lt b = false ∧ b.lt a = false) ↔ (a.t = b.t ∧ a.z.index = b.z.index)) ∧
    (a.lt b = false → b.lt a = false → b.lt c = false → c.lt b = false → a.lt c = false ∧ c.lt a = false) := by
  unfold Meas.lt
  simp only [Bool.eq_false_iff, ne_eq, keyLt_iff]
  refine ⟨by omega, by omega, by omega, by omega⟩

/-- The order agrees with the chronological order, and at one time IMU samples come before
observation bundles, those before position fixes, those before held ambiguities. -/
theorem C39_order (a b : Meas υ ζ) (h : a.lt b = true) : a.t ≤ b.t ∧ (a.t = b.t → a.z.index < b.z.index) := by
  unfold Meas.lt at h
  rw [keyLt_iff] at h
  omega

example : (⟨5, .imu ()⟩ : Meas Unit Nat).lt ⟨5, .pointPos 1⟩ = true ∧
    (⟨5, .pointPos 1⟩ : Meas Unit Nat).lt ⟨5, .pointPos 2⟩ = false ∧
    (⟨5, .fixHold 1⟩ : Meas Unit Nat).lt ⟨6, .imu ()⟩ = true := by decide +kernel

/-! ### C38 -/

/-- **C38.** After every history of calls (measurements in any order, ephemerides in between):
the stored measurements are sorted, none is more than one second older than the newest one; the
stored snapshots are strictly increasing in time, between 1 and 99 in number, none more than one
second and half a quantum older than the newest measurement, and the current one is at most half a
quantum behind it. -/
theorem C38_bounded_history (F : Filter σ υ ζ) (t0 : Int) (x0 : σ) (u0 : υ) (ops : List (Op υ ζ))
    (e : Estimator σ υ ζ) (h : run F (Est.init t0 x0 u0) ops = .ok e) :
    e.ms.Pairwise (fun a b => a.t ≤ b.t ∧ b.lt a = false) ∧
    e.st.Pairwise (fun a b => a.t < b.t) ∧
    1 ≤ e.st.length ∧ e.st.length ≤ 99 ∧
    (∀ n ∈ e.ms, ∀ m ∈ e.ms, n.t - m.t ≤ 1000000000) ∧
    (∀ n ∈ e.ms, ∀ s ∈ e.st, n.t - s.t ≤ 1000050000) ∧
    (∀ n ∈ e.ms, ∃ b, e.st.getLast? = some b ∧ n.t - b.t ≤ 50000) := by
  have hv := run_inv h (init_inv t0 x0 u0)
  have hlast : ∀ n ∈ e.ms, ∃ l, e.ms.getLast? = some l ∧ n.t ≤ l.t := by
    intro n hn
    cases hl : e.ms.getLast? with
    | none => rw [List.getLast?_eq_none_iff] at hl; rw [hl] at hn; simp at hn
    | some l => exact ⟨l, rfl, sorted_le_last hv.sorted hl n hn⟩
  refine ⟨?_, hv.inc, List.length_pos_iff.2 hv.ne, hv.len, ?_, ?_, ?_⟩
  · exact List.pairwise_and_iff.2 ⟨sorted_time hv.sorted, hv.sorted⟩
  · intro n hn m hm
    obtain ⟨l, hl, hle⟩ := hlast n hn
    have := (hv.window l hl).1 m hm
    simp only [MAX_DELAY] at this
    omega
  · intro n hn s hs
    obtain ⟨l, hl, hle⟩ := hlast n hn
    have := (hv.window l hl).2.1 s hs
    simp only [MAX_DELAY, HALF] at this
    omega
  · intro n hn
    obtain ⟨l, hl, hle⟩ := hlast n hn
    obtain ⟨b, hb, h1⟩ := (hv.window l hl).2.2
    simp only [HALF] at h1
    exact ⟨b, hb, by omega⟩

/-! ### Filters for examples: the state is the list of what was done to it -/

/-- What a filter can be asked to do. -/
inductive Did where
  | predicted (dt : Int) (u : Nat)
  | fused (kind : Nat) (label : Nat)
deriving DecidableEq, Repr

/-- The recording filter. -/
def recorder : Filter (List Did) Nat Nat where
  predict x dt u := x ++ [.predicted dt u]
  updObs _ x l _ := x ++ l.map fun o => .fused 1 o.z
  updPointPos x z _ := x ++ [.fused 2 z]
  updFixHold x z := x ++ [.fused 3 z]

/-- The current state after delivering measurements to a fresh recorder. -/
def record (arr : List (Meas Nat Nat)) : Res (Option (List Did)) :=
  (deliver recorder (Est.init 0 [] 7) arr).bind fun p => .ok (p.2.st.getLast?.map Snap.x)

/-! ### C36, C35 -/

/-- **C35 (full statement, false).** Whatever the arrival order, the current snapshot is the one
reached by delivering the accepted measurements in the estimator's own order. -/
def C35_statement : Prop :=
  ∀ (σ υ ζ : Type) (F : Filter σ υ ζ) (t0 : Int) (x0 : σ) (u0 : υ) (arr acc srt : List (Meas υ ζ))
    (e e' : Estimator σ υ ζ), deliver F (Est.init t0 x0 u0) arr = .ok (acc, e) →
    srt.Perm acc → srt.Pairwise (fun a b => b.lt a = false) →
    deliver F (Est.init t0 x0 u0) srt = .ok (srt, e') → e.st.getLast? = e'.st.getLast?

/-- **C36 (full statement, false)** for measurements that are fused: on the recording filter every
accepted position fix appears once in the history of the current state. -/
def C36_statement : Prop :=
  ∀ (arr acc : List (Meas Nat Nat)) (e : Estimator (List Did) Nat Nat) (b : Snap (List Did) Nat),
    deliver recorder (Est.init 0 [] 7) arr = .ok (acc, e) → e.st.getLast? = some b →
    ∀ k, b.x.count (.fused 3 k) = acc.countP fun m => decide (m.z = .fixHold k)

/-- **C36 violated**: a held ambiguity and a position fix of the same epoch; if the fix arrives
second it sorts first, the snapshot of that epoch is kept, and the held ambiguity is fused twice. -/
theorem C36_applied_twice_violated :
    record [⟨1000000000, .fixHold 1⟩, ⟨1000000000, .pointPos 2⟩] =
      .ok (some [.predicted 1000000000 7, .fused 3 1, .fused 2 2, .fused 3 1]) ∧
    record [⟨1000000000, .pointPos 2⟩, ⟨1000000000, .fixHold 1⟩] =
      .ok (some [.predicted 1000000000 7, .fused 2 2, .fused 3 1]) := by
  decide +kernel

/-- **C36 violated**, a different way: an IMU sample that arrives after a fix of the same time is
never used, and the fix is fused twice. -/
theorem C36_imu_ignored_violated :
    record [⟨1000000000, .pointPos 2⟩, ⟨1000000000, .imu 5⟩] =
      .ok (some [.predicted 1000000000 7, .fused 2 2, .fused 2 2]) ∧
    record [⟨1000000000, .imu 5⟩, ⟨1000000000, .pointPos 2⟩] =
      .ok (some [.predicted 1000000000 5, .fused 2 2]) := by
  decide +kernel

/-- **C36 violated** by times closer than half a quantum: the later one was fused into the earlier
snapshot, which the rewind keeps. -/
theorem C36_sub_quantum_violated :
    record [⟨1000000000, .imu 5⟩, ⟨1000040000, .pointPos 2⟩, ⟨1000020000, .pointPos 3⟩] =
      .ok (some [.predicted 1000000000 5, .fused 2 2, .fused 2 3, .fused 2 2]) := by
  decide +kernel

theorem C36_statement_false : ¬ C36_statement := by
  intro h
  have key : (deliver recorder (Est.init 0 [] 7) [⟨1000000000, .fixHold 1⟩, ⟨1000000000, .pointPos 2⟩]).bind
      (fun p => .ok (p.1, p.2.st.getLast?.map Snap.x)) = .ok ([⟨1000000000, .fixHold 1⟩, ⟨1000000000, .pointPos 2⟩],
        some [.predicted 1000000000 7, .fused 3 1, .fused 2 2, .fused 3 1]) := by decide +kernel
  obtain ⟨⟨acc, e⟩, h1, h2⟩ := bind_ok key
  simp only [Res.ok.injEq, Prod.mk.injEq, Option.map_eq_some_iff] at h2
  obtain ⟨h3, b, h4, h5⟩ := h2
  have h6 := h _ acc e b h1 h4 1
  rw [h5, h3] at h6
  revert h6
  decide +kernel

theorem C35_statement_false : ¬ C35_statement := by
  intro h
  have key : (deliver recorder (Est.init 0 [] 7) [⟨1000000000, .fixHold 1⟩, ⟨1000000000, .pointPos 2⟩]).bind
      (fun p => .ok (p.1, p.2.st.getLast?.map Snap.x)) = .ok ([⟨1000000000, .fixHold 1⟩, ⟨1000000000, .pointPos 2⟩],
        some [.predicted 1000000000 7, .fused 3 1, .fused 2 2, .fused 3 1]) := by decide +kernel
  have key' : (deliver recorder (Est.init 0 [] 7) [⟨1000000000, .pointPos 2⟩, ⟨1000000000, .fixHold 1⟩]).bind
      (fun p => .ok (p.1, p.2.st.getLast?.map Snap.x)) = .ok ([⟨1000000000, .pointPos 2⟩, ⟨1000000000, .fixHold 1⟩],
        some [.predicted 1000000000 7, .fused 2 2, .fused 3 1]) := by decide +kernel
  obtain ⟨⟨acc, e⟩, h1, h2⟩ := bind_ok key
  obtain ⟨⟨acc', e'⟩, h1', h2'⟩ := bind_ok key'
  simp only [Res.ok.injEq, Prod.mk.injEq] at h2 h2'
  rw [h2.1] at h1
  rw [h2'.1] at h1'
  have := h _ _ _ recorder 0 [] 7 _ _ [⟨1000000000, .pointPos 2⟩, ⟨1000000000, .fixHold 1⟩] e e' h1
    (List.Perm.swap _ _ _) (by decide +kernel) h1'
  rw [this, h2'.2] at h2
  exact absurd h2.2 (by decide +kernel)

theorem sep_of {t0 : Int} {arr : List (Meas υ ζ)}
    (hsep : ∀ a ∈ t0 :: arr.map Meas.t, ∀ b ∈ t0 :: arr.map Meas.t, a = b ∨ 50000 < |a - b|) :
    Sep fun t => t ∈ t0 :: arr.map Meas.t := by
  intro a b ha hb hab
  rcases hsep a ha b hb with h | h
  · omega
  · rw [abs_of_neg (by omega)] at h
    simp only [HALF]
    omega

/-- All that is needed about a history with separated times. -/
theorem deliver_main (F : Filter σ υ ζ) (t0 : Int) (x0 : σ) (u0 : υ) (cache : List Nat) (mgr : Manager)
    (arr : List (Meas υ ζ))
    (hsep : ∀ a ∈ t0 :: arr.map Meas.t, ∀ b ∈ t0 :: arr.map Meas.t, a = b ∨ 50000 < |a - b|)
    (hobs : ∀ m ∈ arr, ∀ l, m.z = .obs l → ∀ o ∈ l, o.t = m.t ∧
      (cacheId o.gnss o.sat ∈ cache → ∃ s, getSat mgr o.gnss o.sat = .found s))
    (htie : arr.Pairwise fun a b => a.t = b.t → a.z.index ≤ b.z.index) :
    ∃ acc e full, deliver F ⟨[], [⟨t0, x0, u0⟩], cache, mgr⟩ arr = .ok (acc, e) ∧
      InOrderOf full acc ∧ e.st.getLast? = (hist F mgr ⟨t0, x0, u0⟩ full).getLast? ∧ e.st ≠ [] ∧
      acc.Sublist arr ∧ (∀ m ∈ acc, t0 ≤ m.t ∧ knownSats cache m.z = true) ∧
      ((∀ m ∈ arr, t0 ≤ m.t ∧ knownSats cache m.z = true) → arr.Pairwise (fun a b => a.t ≤ b.t) → acc = arr) := by
  have hf : Faithful F (fun t => t ∈ t0 :: arr.map Meas.t) ⟨t0, x0, u0⟩ ⟨[], [⟨t0, x0, u0⟩], cache, mgr⟩ [] := by
    refine ⟨⟨⟨by simp [Inc], by simp [Est.CAP], by simp, by simp [MSorted], by simp⟩, by simp, by simp⟩,
      ⟨[], rfl, by simp⟩, by simp [MSorted], ?_, by simp, by simp⟩
    exact List.suffix_refl _
  obtain ⟨acc, e, full, h1, h2, h3, h4, h5, h6, h7⟩ := deliver_faithful (sep_of hsep) arr _ [] [] hf
    ⟨by simp, by simp⟩ (by
      intro m hm
      refine ⟨List.mem_cons_of_mem _ (List.mem_map_of_mem hm), ?_⟩
      unfold Served
      split
      · rename_i l hl; exact hobs m hm l hl
      · trivial) htie (by simp)
  refine ⟨acc, e, full, h1, by simpa using h4, ?_, h3.healthy.inv.ne, h5, h6, fun k1 k2 => h7 k1 k2 (by simp)⟩
  have h8 := h3.suf
  rw [h2] at h8
  exact (suffix_last h8 h3.healthy.inv.ne).symm

/-- **C35 partial.** Suppose the measurement times and the start time are pairwise equal or more than
half a quantum (50 us) apart, bundles are well formed and their satellites available, and
measurements with equal times arrive in the order of their kinds.  Then, for every filter and every
delay pattern, no call fails, and the current snapshot (time, state, covariance, input) is exactly
the one obtained by delivering the accepted measurements in time order (equal times in arrival
order); in that order all of them are accepted.  Ephemerides are fixed during the history.
Missing: equal times arriving against the order of kinds, and times closer than half a quantum, for
which the statement is false. -/
theorem C35_in_order_partial (F : Filter σ υ ζ) (t0 : Int) (x0 : σ) (u0 : υ) (cache : List Nat) (mgr : Manager)
    (arr : List (Meas υ ζ))
    (hsep : ∀ a ∈ t0 :: arr.map Meas.t, ∀ b ∈ t0 :: arr.map Meas.t, a = b ∨ 50000 < |a - b|)
    (hobs : ∀ m ∈ arr, ∀ l, m.z = .obs l → ∀ o ∈ l, o.t = m.t ∧
      (cacheId o.gnss o.sat ∈ cache → ∃ s, getSat mgr o.gnss o.sat = .found s))
    (htie : arr.Pairwise fun a b => a.t = b.t → a.z.index ≤ b.z.index) :
    ∃ acc e, deliver F ⟨[], [⟨t0, x0, u0⟩], cache, mgr⟩ arr = .ok (acc, e) ∧ acc.Sublist arr ∧
      ∀ srt : List (Meas υ ζ), srt.Pairwise (fun a b => a.t ≤ b.t) →
        (∀ τ, srt.filter (fun m => m.t = τ) = acc.filter (fun m => m.t = τ)) →
        ∃ e' b, deliver F ⟨[], [⟨t0, x0, u0⟩], cache, mgr⟩ srt = .ok (srt, e') ∧
          e.st.getLast? = some b ∧ e'.st.getLast? = some b := by
  obtain ⟨acc, e, full, h1, h2, h3, h4, h5, h6, _⟩ := deliver_main F t0 x0 u0 cache mgr arr hsep hobs htie
  refine ⟨acc, e, h1, h5, fun srt k1 k2 => ?_⟩
  have hmem : ∀ m ∈ srt, m ∈ acc := by
    intro m hm
    have : m ∈ srt.filter (fun x => x.t = m.t) := by simp [hm]
    rw [k2] at this
    exact (List.mem_filter.1 this).1
  have hsub : ∀ a ∈ t0 :: srt.map Meas.t, a ∈ t0 :: arr.map Meas.t := by
    intro a ha
    rw [List.mem_cons] at ha ⊢
    rcases ha with ha | ha
    · exact Or.inl ha
    · obtain ⟨m, hm, rfl⟩ := List.mem_map.1 ha
      exact Or.inr (List.mem_map_of_mem (h5.subset (hmem m hm)))
  have htie' : srt.Pairwise fun a b => a.t = b.t → a.z.index ≤ b.z.index := by
    have hacc := htie.sublist h5
    rw [List.pairwise_iff_forall_sublist]
    intro a b hab heq
    have : [a, b].Sublist (srt.filter fun m => m.t = a.t) := by
      have := hab.filter (fun m => decide (m.t = a.t))
      simpa [heq] using this
    rw [k2] at this
    have h7 := hacc.sublist (this.trans List.filter_sublist)
    simp only [List.pairwise_cons, List.mem_singleton, forall_eq] at h7
    exact h7.1 heq
  obtain ⟨acc', e', full', g1, g2, g3, g4, _, _, g7⟩ := deliver_main F t0 x0 u0 cache mgr srt
    (fun a ha b hb => hsep a (hsub a ha) b (hsub b hb)) (fun m hm => hobs m (h5.subset (hmem m hm))) htie'
  have e1 := g7 (fun m hm => h6 m (hmem m hm)) k1
  subst e1
  have e2 : full = full' := inOrderOf_unique h2 ⟨g2.1, fun τ => by rw [g2.2, k2]⟩
  subst e2
  obtain ⟨b, hb⟩ := exists_last h4
  exact ⟨e', b, g1, hb, by rw [g3, ← h3, hb]⟩

/-- A delayed fix between two IMU samples: the second sample is undone and repeated. -/
example : record [⟨1000000000, .imu 5⟩, ⟨1200000000, .imu 6⟩, ⟨1100000000, .pointPos 2⟩] =
      .ok (some [.predicted 1000000000 5, .predicted 100000000 5, .fused 2 2, .predicted 100000000 6]) ∧
    record [⟨1000000000, .imu 5⟩, ⟨1100000000, .pointPos 2⟩, ⟨1200000000, .imu 6⟩] =
      .ok (some [.predicted 1000000000 5, .predicted 100000000 5, .fused 2 2, .predicted 100000000 6]) := by
  decide +kernel

/-- What a measurement contributes to the record, apart from predictions. -/
def contribution (m : Meas Nat Nat) : List Did :=
  match m.z with
  | .imu _ => []
  | .obs l => l.map fun o => .fused 1 o.z
  | .pointPos z => [.fused 2 z]
  | .fixHold z => [.fused 3 z]

def isFused : Did → Bool
  | .fused _ _ => true
  | .predicted _ _ => false

theorem record_hist (mgr : Manager) (s0 : Snap (List Did) Nat) (l : List (Meas Nat Nat)) :
    ∃ b, (hist recorder mgr s0 l).getLast? = some b ∧
      b.x.filter isFused = s0.x.filter isFused ++ l.flatMap contribution := by
  induction l using List.reverseRecOn with
  | nil => exact ⟨s0, rfl, by simp⟩
  | append_singleton l m ih =>
    obtain ⟨b, h1, h2⟩ := ih
    have happ : ∀ c : Snap (List Did) Nat, (app recorder mgr m c).x.filter isFused = c.x.filter isFused ++ contribution m := by
      intro c
      unfold app contribution
      cases m.z with
      | imu u => simp
      | obs l =>
        simp only [recorder, List.filter_append]
        refine congrArg _ (List.filter_eq_self.2 ?_)
        intro d hd
        obtain ⟨o, _, rfl⟩ := List.mem_map.1 hd
        rfl
      | pointPos z => simp [recorder, isFused]
      | fixHold z => simp [recorder, isFused]
    have hsn : hist recorder mgr s0 (l ++ [m]) = istep recorder mgr (hist recorder mgr s0 l) m := by
      unfold hist; rw [List.foldl_append]; rfl
    rw [hsn]
    unfold istep
    rw [h1]
    dsimp only
    rw [List.flatMap_append, ← List.append_assoc, ← h2]
    split_ifs
    · refine ⟨app recorder mgr m (pred recorder m b), by simp, ?_⟩
      rw [happ]
      simp [pred, recorder, isFused]
    · refine ⟨app recorder mgr m b, by simp, ?_⟩
      rw [happ]
      simp

/-- **C36 partial.** Under the conditions of C35, the history of the current state contains exactly the
contributions of the accepted bundles, fixes and held ambiguities, each once, in time order.
Missing: the cases where it is false, see the violations. -/
theorem C36_once_partial (t0 : Int) (u0 : Nat) (cache : List Nat) (mgr : Manager) (arr : List (Meas Nat Nat))
    (hsep : ∀ a ∈ t0 :: arr.map Meas.t, ∀ b ∈ t0 :: arr.map Meas.t, a = b ∨ 50000 < |a - b|)
    (hobs : ∀ m ∈ arr, ∀ l, m.z = .obs l → ∀ o ∈ l, o.t = m.t ∧
      (cacheId o.gnss o.sat ∈ cache → ∃ s, getSat mgr o.gnss o.sat = .found s))
    (htie : arr.Pairwise fun a b => a.t = b.t → a.z.index ≤ b.z.index) :
    ∃ (acc : List (Meas Nat Nat)) (e : Estimator (List Did) Nat Nat) (b : Snap (List Did) Nat)
      (srt : List (Meas Nat Nat)), deliver recorder ⟨[], [⟨t0, [], u0⟩], cache, mgr⟩ arr = .ok (acc, e) ∧
      srt.Pairwise (fun a b => a.t ≤ b.t) ∧ (∀ τ, srt.filter (fun m => m.t = τ) = acc.filter (fun m => m.t = τ)) ∧
      e.st.getLast? = some b ∧ b.x.filter isFused = srt.flatMap contribution ∧
      ∀ d, (b.x.filter isFused).count d = (acc.flatMap contribution).count d := by
  obtain ⟨acc, e, full, h1, h2, h3, h4, _⟩ := deliver_main recorder t0 [] u0 cache mgr arr hsep hobs htie
  obtain ⟨b, b1, b2⟩ := record_hist mgr ⟨t0, [], u0⟩ full
  refine ⟨acc, e, b, full, h1, h2.1, h2.2, by rw [h3, b1], by simpa using b2, fun d => ?_⟩
  have hp : full.Perm acc := by
    rw [List.perm_iff_count]
    intro m
    have k : ∀ l : List (Meas Nat Nat), l.count m = (l.filter fun x => x.t = m.t).count m := by
      intro l; rw [List.count_filter (by simp)]
    rw [k full, k acc, h2.2]
  have : (b.x.filter isFused) = full.flatMap contribution := by simpa using b2
  rw [this]
  exact (hp.flatMap_right contribution).count_eq d

/-! ### C37 -/

/-- Outcome without its value. -/
def outcome {α : Type} : Res α → Res Unit
  | .ok _ => .ok ()
  | .abort => .abort
  | .ub => .ub

/-- **C37 (full statement, false).** -/
def C37_statement : Prop :=
  ∀ (σ υ ζ : Type) (F : Filter σ υ ζ) (t0 : Int) (x0 : σ) (u0 : υ) (ops : List (Op υ ζ)),
    ∃ e, run F (Est.init t0 x0 u0) ops = .ok e ∧ e.st ≠ []

/-- **C37 violated**: a measurement 20 us older than the oldest snapshot passes the quantised
staleness test, and the exact rewind then removes every snapshot. -/
theorem C37_emptied_violated (F : Filter σ υ ζ) (x0 : σ) (u0 : υ) (z : ζ) :
    run F (Est.init 0 x0 u0) [.meas ⟨-20000, .pointPos z⟩] = .ub := rfl

/-- **C37 violated**: an IMU sample 20 us after the current state aborts the process. -/
theorem C37_imu_abort_violated (F : Filter σ υ ζ) (x0 : σ) (u0 u : υ) :
    run F (Est.init 0 x0 u0) [.meas ⟨20000, .imu u⟩] = .abort := rfl

/-- **C37 violated**: once the ephemeris of a 30th GPS satellite has arrived, an observation of the
first one aborts the process: its cache entry is still there, the satellite is not. -/
theorem C37_evicted_satellite_violated :
    outcome (run recorder (Est.init 0 [] 7)
      (((List.range 30).map fun i => .eph .gps ⟨0, i + 1, ⟨10, 0⟩, i⟩) ++
        [.meas ⟨1000000000, .obs [⟨1000000000, 0, 1, 5⟩]⟩])) = .abort ∧
    outcome (run recorder (Est.init 0 [] 7)
      (((List.range 29).map fun i => .eph .gps ⟨0, i + 1, ⟨10, 0⟩, i⟩) ++
        [.meas ⟨1000000000, .obs [⟨1000000000, 0, 1, 5⟩]⟩])) = .ok () := by
  decide +kernel

theorem C37_statement_false : ¬ C37_statement := by
  intro h
  obtain ⟨e, he, _⟩ := h Unit Unit Unit ⟨fun _ _ _ => (), fun _ _ _ _ => (), fun _ _ _ => (), fun _ _ => ()⟩ 0 () ()
    [.meas ⟨-20000, .pointPos ()⟩]
  rw [C37_emptied_violated] at he
  cases he

/-- The ephemerides among the calls. -/
def ephs : List (Op υ ζ) → List (Const × Eph)
  | [] => []
  | .meas _ :: r => ephs r
  | .eph c e :: r => (c, e) :: ephs r

/-- The measurement times among the calls. -/
def times : List (Op υ ζ) → List Int
  | [] => []
  | .meas m :: r => m.t :: times r
  | .eph _ _ :: r => times r

theorem cacheId_inj {g g' s s' : Nat} (h : s < 256) (h' : s' < 256) (e : cacheId g s = cacheId g' s') : g = g' ∧ s = s' := by
  unfold cacheId at e
  rw [← Nat.shiftLeft_add_eq_or_of_lt (i := 8) h, ← Nat.shiftLeft_add_eq_or_of_lt (i := 8) h', Nat.shiftLeft_eq,
    Nat.shiftLeft_eq] at e
  omega

theorem runCbs_snoc (m : Manager) (h : List (Const × Eph)) (c : Const) (x : Eph) :
    runCbs m (h ++ [(c, x)]) = (runCbs m h).bind fun m => Sat.ephCb m c x := by
  induction h generalizing m with
  | nil =>
    simp only [List.nil_append, runCbs]
    rw [Option.bind_some]
    cases Sat.ephCb m c x <;> rfl
  | cons p h ih =>
    obtain ⟨c', x'⟩ := p
    simp only [List.cons_append, runCbs]
    cases Sat.ephCb m c' x' with
    | none => rfl
    | some m1 => exact ih m1

/-- The ephemerides of a history are usable and from few enough satellites. -/
def Fleet (tot : List (Const × Eph)) : Prop :=
  (∀ p ∈ tot, p.2.gnss = Est.gnssOf p.1 ∧ TimeSpec.Norm p.2.toe ∧ p.2.sat < 256) ∧
  ∀ c, (((tot.filter fun p => p.1 = c).map fun p => p.2.sat).dedup.length ≤ 29)

theorem Fleet.mono {h k : List (Const × Eph)} (hf : Fleet (h ++ k)) : Fleet h := by
  refine ⟨fun p hp => hf.1 p (by simp [hp]), fun c => le_trans ?_ (hf.2 c)⟩
  refine List.Subperm.length_le ((List.nodup_dedup _).subperm ?_)
  intro y hy
  rw [List.mem_dedup] at hy ⊢
  rw [List.filter_append, List.map_append]
  exact List.mem_append_left _ hy

theorem gnssOf_eq (c : Const) : SatSpec.gnssOf c = Est.gnssOf c := by cases c <;> rfl

theorem fleet_lookup {h : List (Const × Eph)} (hf : Fleet h) :
    ∃ m, runCbs Manager.init h = some m ∧ ∀ p ∈ h, ∃ s, getSat m (Est.gnssOf p.1) p.2.sat = .found s := by
  have hg : ∀ p ∈ h, p.2.gnss = SatSpec.gnssOf p.1 := fun p hp => by rw [gnssOf_eq]; exact (hf.1 p hp).1
  have hn : ∀ p ∈ h, TimeSpec.Norm p.2.toe := fun p hp => (hf.1 p hp).2.1
  have hd : ∀ c, (SatSpec.deliveredTo c h).map Eph.sat = (h.filter fun p => p.1 = c).map fun p => p.2.sat := by
    intro c
    unfold SatSpec.deliveredTo
    rw [List.map_map]
    rfl
  have key := fun c => Satellite.C30_no_eviction h hg hn c (by rw [hd]; exact hf.2 c)
  obtain ⟨m, m1, _⟩ := key .gps
  refine ⟨m, m1, fun p hp => ?_⟩
  obtain ⟨m', m1', m2⟩ := key p.1
  rw [m1] at m1'
  cases m1'
  obtain ⟨s, hs, _⟩ := (m2 p.2.sat).2 (by
    rw [hd]
    exact List.mem_map.2 ⟨p, by simp [hp], rfl⟩)
  exact ⟨s, by rw [← gnssOf_eq]; exact hs⟩

/-- What `run` keeps while the times are separated and no satellite is evicted. -/
theorem run_healthy {F : Filter σ υ ζ} {P : Int → Prop} (hP : Sep P) :
    ∀ (ops : List (Op υ ζ)) (h : List (Const × Eph)) (e : Estimator σ υ ζ), Fleet (h ++ ephs ops) →
      Healthy P e → runCbs Manager.init h = some e.mgr →
      (∀ i, i ∈ e.cache ↔ ∃ p ∈ h, i = cacheId (Est.gnssOf p.1) p.2.sat) →
      (∀ m, .meas m ∈ ops → P m.t ∧ ∀ l, m.z = .obs l → ∀ o ∈ l, o.t = m.t ∧ o.sat < 256) →
      (∀ m ∈ e.ms, ∀ l, m.z = .obs l → ∀ o ∈ l, o.t = m.t ∧ o.sat < 256) →
      ∃ e', run F e ops = .ok e' ∧ e'.st ≠ [] := by
  have served : ∀ (h : List (Const × Eph)) (cache : List Nat) (mgr : Manager), Fleet h →
      runCbs Manager.init h = some mgr →
      (∀ i, i ∈ cache ↔ ∃ p ∈ h, i = cacheId (Est.gnssOf p.1) p.2.sat) → ∀ m : Meas υ ζ,
      (∀ l, m.z = .obs l → ∀ o ∈ l, o.t = m.t ∧ o.sat < 256) → Served cache mgr m := by
    intro h cache mgr hf hr hc m hm
    unfold Served
    split
    · rename_i l hl
      intro o ho
      obtain ⟨h1, h2⟩ := hm l hl o ho
      refine ⟨h1, fun hi => ?_⟩
      obtain ⟨p, hp, hpe⟩ := (hc _).1 hi
      obtain ⟨e1, e2⟩ := cacheId_inj h2 (hf.1 p hp).2.2 hpe
      obtain ⟨m', m1, m2⟩ := fleet_lookup hf
      rw [hr] at m1
      cases m1
      rw [e1, e2]
      exact m2 p hp
    · trivial
  intro ops
  induction ops with
  | nil => intro h e _ he _ _ _ _; exact ⟨e, rfl, he.inv.ne⟩
  | cons o ops ih =>
    intro h e hf he hr hc hm hms
    cases o with
    | meas m =>
      have hs := served h e.cache e.mgr hf.mono hr hc m (hm m (by simp)).2
      obtain ⟨r, e1, a1, a2, a3, a4⟩ := addMeasurement_healthy (F := F) hP he (hm m (by simp)).1 hs
      have hmem : ∀ x ∈ e1.ms, x = m ∨ x ∈ e.ms := by
        unfold addMeasurement at a1
        split at a1
        · cases a1
        · split_ifs at a1
          · cases a1; exact fun x hx => Or.inr hx
          · cases a1; exact fun x hx => Or.inr hx
          · obtain ⟨e2, b1, b2⟩ := bind_ok a1
            cases b2
            unfold insertAndRoll at b1
            obtain ⟨_, _, b3⟩ := bind_ok b1
            obtain ⟨_, _, b4⟩ := bind_ok b3
            unfold dropOldMeasurements at b4
            dsimp only at b4
            split at b4
            · cases b4
            · obtain ⟨_, _, b5⟩ := bind_ok b4
              cases b5
              intro x hx
              exact mem_insert x ((List.dropWhile_sublist _).subset hx)
      obtain ⟨e', b1, b2⟩ := ih h e1 hf a2 (by rw [a4]; exact hr) (by rw [a3]; exact hc)
        (fun x hx => hm x (by simp [hx])) (by
          intro x hx
          rcases hmem x hx with rfl | h
          · exact (hm x (by simp)).2
          · exact hms x h)
      exact ⟨e', by rw [run, step, a1]; exact b1, b2⟩
    | eph c x =>
      have hf' : Fleet ((h ++ [(c, x)]) ++ ephs ops) := by simpa [ephs] using hf
      obtain ⟨mgr, m1, m2⟩ := fleet_lookup hf'.mono
      have m3 := m1
      rw [runCbs_snoc, hr, Option.bind_some] at m3
      have hcache : ∀ i, i ∈ (if cacheId (Est.gnssOf c) x.sat ∈ e.cache then e.cache
          else cacheId (Est.gnssOf c) x.sat :: e.cache) ↔ ∃ p ∈ h ++ [(c, x)], i = cacheId (Est.gnssOf p.1) p.2.sat := by
        intro i
        have : i ∈ (if cacheId (Est.gnssOf c) x.sat ∈ e.cache then e.cache
          else cacheId (Est.gnssOf c) x.sat :: e.cache) ↔ i ∈ e.cache ∨ i = cacheId (Est.gnssOf c) x.sat := by
          split_ifs with hx
          · constructor
            · exact Or.inl
            · rintro (h | rfl)
              · exact h
              · exact hx
          · rw [List.mem_cons]; tauto
        rw [this, hc]
        constructor
        · rintro (⟨p, hp, rfl⟩ | rfl)
          · exact ⟨p, by simp [hp], rfl⟩
          · exact ⟨(c, x), by simp, rfl⟩
        · rintro ⟨p, hp, rfl⟩
          rw [List.mem_append, List.mem_singleton] at hp
          rcases hp with hp | rfl
          · exact Or.inl ⟨p, hp, rfl⟩
          · exact Or.inr rfl
      obtain ⟨e', b1, b2⟩ := ih (h ++ [(c, x)]) ⟨e.ms, e.st, _, mgr⟩ hf' ⟨⟨he.inv.inc, he.inv.len, he.inv.ne,
        he.inv.sorted, he.inv.window⟩, he.times, by
          intro m hmm
          obtain ⟨q1, _, q3⟩ := he.meas m hmm
          refine ⟨q1, served _ _ _ hf'.mono m1 hcache m (hms m hmm), ?_⟩
          unfold knownSats at q3 ⊢
          split
          · rename_i l hl
            rw [hl] at q3
            dsimp only at q3
            rw [List.all_eq_true] at q3 ⊢
            intro o ho
            have := q3 o ho
            rw [decide_eq_true_eq] at this ⊢
            refine (hcache _).2 ?_
            obtain ⟨p, hp, e1⟩ := (hc _).1 this
            exact ⟨p, by simp [hp], e1⟩
          · rfl⟩ m1 hcache (fun x hx => hm x (by simp [hx])) hms
      refine ⟨e', ?_, b2⟩
      rw [run, step, Est.ephCb, m3]
      exact b1

theorem times_mem {m : Meas υ ζ} {ops : List (Op υ ζ)} (h : .meas m ∈ ops) : m.t ∈ times ops := by
  induction ops with
  | nil => simp at h
  | cons o ops ih =>
    rw [List.mem_cons] at h
    rcases h with rfl | h
    · simp [times]
    · have := ih h
      cases o <;> simp [times, this]

/-- **C37 partial.** For every history of measurements (any kinds, any order, any ties) and
ephemerides: if measurement times and the start time are pairwise equal or more than half a quantum
apart, the observations of a bundle carry its time, satellite numbers are below 256, and at most 29
satellites per constellation are heard, then no call aborts or is undefined, and there is always a
current state.  Missing: the situations of the three violations. -/
theorem C37_always_a_state_partial (F : Filter σ υ ζ) (t0 : Int) (x0 : σ) (u0 : υ) (ops : List (Op υ ζ))
    (hsep : ∀ a ∈ t0 :: times ops, ∀ b ∈ t0 :: times ops, a = b ∨ 50000 < |a - b|)
    (hobs : ∀ m l, .meas m ∈ ops → m.z = .obs l → ∀ o ∈ l, o.t = m.t ∧ o.sat < 256)
    (hfl : Fleet (ephs ops)) :
    ∃ e, run F (Est.init t0 x0 u0) ops = .ok e ∧ e.st ≠ [] := by
  refine run_healthy (P := fun t => t ∈ t0 :: times ops) ?_ ops [] _ hfl ⟨init_inv t0 x0 u0, ?_, ?_⟩ rfl ?_ ?_ ?_
  · intro a b ha hb hab
    rcases hsep a ha b hb with h | h
    · omega
    · rw [abs_of_neg (by omega)] at h
      simp only [HALF]
      omega
  · simp [Est.init]
  · simp [Est.init]
  · simp [Est.init]
  · intro m hm
    exact ⟨List.mem_cons_of_mem _ (times_mem hm), fun l hl => hobs m l hm hl⟩
  · simp [Est.init]

/-- A history that meets the conditions: an out-of-order tie and an ephemeris. -/
example : Fleet (ephs (υ := Nat) (ζ := Nat) [.meas ⟨1000000000, .fixHold 1⟩, .eph .gps ⟨0, 5, ⟨10, 0⟩, 0⟩,
      .meas ⟨1000000000, .pointPos 2⟩, .meas ⟨900000000, .obs [⟨900000000, 0, 5, 1⟩]⟩]) ∧
    outcome (run recorder (Est.init 0 [] 7) [.meas ⟨1000000000, .fixHold 1⟩, .eph .gps ⟨0, 5, ⟨10, 0⟩, 0⟩,
      .meas ⟨1000000000, .pointPos 2⟩, .meas ⟨900000000, .obs [⟨900000000, 0, 5, 1⟩]⟩]) = .ok () := by
  refine ⟨⟨by simp [ephs, Est.gnssOf, TimeSpec.Norm], fun c => ?_⟩, by decide +kernel⟩
  cases c <;> decide

end Verif.Props.Estimator
