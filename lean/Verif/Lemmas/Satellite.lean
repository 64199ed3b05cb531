import Verif.Spec.Satellite
import Verif.Lemmas.Time
import Mathlib.Data.List.Basic
/-! Lemmas for the almanac and the satellite manager. -/
namespace Verif.Sat
open Verif.Utc Verif.TimeSpec Verif.SatSpec

theorem eq_iff (a b : Time) : Utc.eq a b = true ↔ a = b := by
  cases a; cases b; simp [Utc.eq]

theorem gt_iff (a b : Time) (ha : Norm a) (hb : Norm b) : Utc.gt a b = true ↔ instant b < instant a := by
  unfold Utc.gt instant Norm at *
  split
  · simp; omega
  · split
    · simp; omega
    · split
      · simp; omega
      · simp; omega

def Sorted (l : List Eph) : Prop := l.Pairwise fun a b => instant a.toe < instant b.toe

theorem insertEph_mem (x : Eph) (hx : Norm x.toe) (l : List Eph) (hn : ∀ e ∈ l, Norm e.toe) (hs : Sorted l) :
    ∀ e, e ∈ insertEph x l ↔ e = x ∨ (e ∈ l ∧ e.toe ≠ x.toe) := by
  induction l with
  | nil => intro e; simp [insertEph]
  | cons a l ih =>
    intro e
    unfold Sorted at hs
    rw [List.pairwise_cons] at hs
    have hgt : ∀ b ∈ l, a.toe ≠ b.toe := fun b hb h => by
      have := hs.1 b hb; rw [h] at this; omega
    rw [insertEph]
    split
    · rename_i h
      rw [eq_iff] at h
      constructor
      · intro he
        rcases List.mem_cons.1 he with he | he
        · exact Or.inl he
        · exact Or.inr ⟨List.mem_cons_of_mem _ he, fun hh => hgt e he (by rw [hh, h])⟩
      · rintro (he | ⟨he, hh⟩)
        · rw [he]; exact List.mem_cons_self
        · rcases List.mem_cons.1 he with he | he
          · exact absurd (by rw [he, h]) hh
          · exact List.mem_cons_of_mem _ he
    · rename_i h
      rw [eq_iff] at h
      split
      · rename_i h2
        rw [gt_iff _ _ (hn a List.mem_cons_self) hx] at h2
        constructor
        · intro he
          rcases List.mem_cons.1 he with he | he
          · exact Or.inl he
          · refine Or.inr ⟨he, fun hh => ?_⟩
            rcases List.mem_cons.1 he with he | he
            · exact h (by rw [← he, hh])
            · have := hs.1 e he; rw [hh] at this; omega
        · rintro (he | ⟨he, hh⟩)
          · rw [he]; exact List.mem_cons_self
          · exact List.mem_cons_of_mem _ he
      · rename_i h2
        rw [List.mem_cons, ih (fun e he => hn e (List.mem_cons_of_mem _ he)) hs.2, List.mem_cons]
        constructor
        · rintro (he | he | ⟨he, hh⟩)
          · exact Or.inr ⟨Or.inl he, by rw [he]; exact h⟩
          · exact Or.inl he
          · exact Or.inr ⟨Or.inr he, hh⟩
        · rintro (he | ⟨he | he, hh⟩)
          · exact Or.inr (Or.inl he)
          · exact Or.inl he
          · exact Or.inr (Or.inr ⟨he, hh⟩)

theorem insertEph_sorted (x : Eph) (hx : Norm x.toe) (l : List Eph) (hn : ∀ e ∈ l, Norm e.toe) (hs : Sorted l) :
    Sorted (insertEph x l) := by
  induction l with
  | nil => simp [insertEph, Sorted]
  | cons a l ih =>
    unfold Sorted at hs
    rw [List.pairwise_cons] at hs
    have hn' : ∀ e ∈ l, Norm e.toe := fun e he => hn e (List.mem_cons_of_mem _ he)
    rw [insertEph]
    split
    · rename_i h
      rw [eq_iff] at h
      unfold Sorted
      rw [List.pairwise_cons]
      exact ⟨fun b hb => by rw [← h]; exact hs.1 b hb, hs.2⟩
    · rename_i h
      rw [eq_iff] at h
      split
      · rename_i h2
        rw [gt_iff _ _ (hn a List.mem_cons_self) hx] at h2
        unfold Sorted
        rw [List.pairwise_cons, List.pairwise_cons]
        refine ⟨fun b hb => ?_, hs⟩
        rcases List.mem_cons.1 hb with hb | hb
        · rw [hb]; exact h2
        · exact lt_trans h2 (hs.1 b hb)
      · rename_i h2
        rw [gt_iff _ _ (hn a List.mem_cons_self) hx] at h2
        unfold Sorted
        rw [List.pairwise_cons]
        refine ⟨fun b hb => ?_, ih hn' hs.2⟩
        rw [insertEph_mem x hx l hn' hs.2] at hb
        rcases hb with hb | ⟨hb, _⟩
        · rw [hb]
          rcases lt_trichotomy (instant a.toe) (instant x.toe) with h3 | h3 | h3
          · exact h3
          · exact absurd (norm_ext (hn a List.mem_cons_self) hx h3) h
          · exact absurd h3 h2
        · exact hs.1 b hb

theorem latest_snoc (h : List Eph) (x e : Eph) :
    Latest (h ++ [x]) e ↔ e = x ∨ (Latest h e ∧ e.toe ≠ x.toe) := by
  constructor
  · rintro ⟨h₁, h₂, he, hh⟩
    rcases List.eq_nil_or_concat h₂ with rfl | ⟨h₃, y, rfl⟩
    · left
      have := (List.append_inj' he rfl).2
      simpa using this.symm
    · right
      rw [List.concat_eq_append] at he hh
      rw [show h₁ ++ e :: (h₃ ++ [y]) = (h₁ ++ e :: h₃) ++ [y] by simp] at he
      obtain ⟨e1, e2⟩ := List.append_inj' he rfl
      simp at e2
      subst e2
      exact ⟨⟨h₁, h₃, e1, fun e' he' => hh e' (by simp [he'])⟩, fun hc => hh x (by simp) hc.symm⟩
  · rintro (rfl | ⟨⟨h₁, h₂, rfl, hh⟩, hne⟩)
    · exact ⟨h, [], rfl, by simp⟩
    · refine ⟨h₁, h₂ ++ [x], by simp, ?_⟩
      intro e' he'
      rcases List.mem_append.1 he' with he' | he'
      · exact hh e' he'
      · simp at he'; subst he'; exact fun hc => hne hc.symm

theorem latest_mem {h : List Eph} {e : Eph} (hl : Latest h e) : e ∈ h := by
  obtain ⟨h₁, h₂, rfl, _⟩ := hl
  simp

theorem expected_nil : Expected [] [] := by
  refine ⟨List.Pairwise.nil, fun e => ?_⟩
  constructor
  · intro h; simp at h
  · rintro ⟨h₁, h₂, h, _⟩; simp at h

theorem expected_snoc (hist alm : List Eph) (x : Eph) (hn : ∀ e ∈ hist, Norm e.toe) (hx : Norm x.toe)
    (he : Expected hist alm) : Expected (hist ++ [x]) (insertEph x alm) := by
  have hn' : ∀ e ∈ alm, Norm e.toe := fun e h => hn e (latest_mem ((he.2 e).1 h))
  refine ⟨insertEph_sorted x hx alm hn' he.1, fun e => ?_⟩
  rw [insertEph_mem x hx alm hn' he.1, latest_snoc, he.2]

/-! ### Closest ephemeris -/

def dist (t : Time) (e : Eph) : Nat := (instant t - instant e.toe).natAbs

theorem sub_dist (t : Time) (e : Eph) (ht : Norm t) (he : Norm e.toe) (mt : Moderate t) (me : Moderate e.toe) :
    ∃ d, sub t e.toe = some d ∧ (toSecNs d).natAbs = dist t e := by
  obtain ⟨d, h1, h2, h3⟩ := sub_defined t e.toe ht he (by unfold Moderate at *; omega)
  refine ⟨d, h1, ?_⟩
  unfold dist
  have : toSecNs d = instant d := by unfold toSecNs instant; norm_num
  rw [this, h3]

/-- The loop over a list descending in `toe`. -/
theorem closestLoop_spec (t : Time) (ht : Norm t) (mt : Moderate t) (l : List Eph)
    (hn : ∀ e ∈ l, Norm e.toe ∧ Moderate e.toe)
    (hs : l.Pairwise fun a b => instant b.toe < instant a.toe) (b : Eph)
    (hb : ∀ e ∈ l, instant e.toe < instant b.toe) :
    ∃ r, closestLoop t l (some ((dist t b : Int), b)) = some (some ((dist t r : Int), r)) ∧
      (r = b ∨ r ∈ l) ∧ dist t r ≤ dist t b ∧ ∀ e ∈ l, dist t r ≤ dist t e := by
  induction l generalizing b with
  | nil => exact ⟨b, rfl, Or.inl rfl, le_refl _, by simp⟩
  | cons a l ih =>
    rw [List.pairwise_cons] at hs
    obtain ⟨d, h1, h2⟩ := sub_dist t a ht (hn a List.mem_cons_self).1 mt (hn a List.mem_cons_self).2
    have hab := hb a List.mem_cons_self
    rw [closestLoop]
    simp only [h1, Option.bind_eq_bind, Option.bind_some, h2]
    split
    · rename_i hlt
      obtain ⟨r, r1, r2, r3, r4⟩ := ih (fun e he => hn e (List.mem_cons_of_mem _ he)) hs.2 a hs.1
      refine ⟨r, r1, Or.inr ?_, ?_, ?_⟩
      · rcases r2 with r2 | r2
        · rw [r2]; exact List.mem_cons_self
        · exact List.mem_cons_of_mem _ r2
      · have : dist t a < dist t b := by exact_mod_cast hlt
        omega
      · intro e he
        rcases List.mem_cons.1 he with he | he
        · rw [he]; exact r3
        · exact r4 e he
    · rename_i hlt
      have hle : dist t b ≤ dist t a := by
        have : ¬ (dist t a < dist t b) := fun h => hlt (by exact_mod_cast h)
        omega
      refine ⟨b, rfl, Or.inl rfl, le_refl _, ?_⟩
      intro e he
      rcases List.mem_cons.1 he with he | he
      · rw [he]; exact hle
      · have := hs.1 e he
        unfold dist at *
        omega

/-! ### Manager -/

theorem find_some {n : Nat} {l : List Satellite} {s : Satellite} (h : find n l = some s) : s ∈ l ∧ s.sat = n := by
  induction l with
  | nil => simp [find] at h
  | cons a l ih =>
    rw [find] at h
    split at h
    · simp at h; subst h; exact ⟨List.mem_cons_self, by assumption⟩
    · exact ⟨List.mem_cons_of_mem _ (ih h).1, (ih h).2⟩

theorem find_none {n : Nat} {l : List Satellite} : find n l = none ↔ n ∉ l.map Satellite.sat := by
  induction l with
  | nil => simp [find]
  | cons a l ih =>
    rw [find]
    split
    · rename_i h; simp [h]
    · rename_i h; rw [ih]; simp [Ne.symm h]

theorem find_eq {l : List Satellite} (hn : (l.map Satellite.sat).Nodup) {s : Satellite} (hs : s ∈ l) :
    find s.sat l = some s := by
  induction l with
  | nil => simp at hs
  | cons a l ih =>
    rw [List.map_cons, List.nodup_cons] at hn
    rw [find]
    rcases List.mem_cons.1 hs with h | h
    · rw [if_pos (by rw [h]), h]
    · rw [if_neg, ih hn.2 h]
      intro hc; exact hn.1 (hc ▸ List.mem_map_of_mem h)

/-- What an update does to each satellite. -/
def upd (e : Eph) (s : Satellite) : Satellite :=
  if s.sat = e.sat then { s with almanac := insertEph e s.almanac } else s

theorem upd_sat (e : Eph) (s : Satellite) : (upd e s).sat = s.sat := by unfold upd; split <;> rfl
theorem upd_gnss (e : Eph) (s : Satellite) : (upd e s).gnss = s.gnss := by unfold upd; split <;> rfl

theorem updateFirst_spec (e : Eph) (l : List Satellite) (hn : (l.map Satellite.sat).Nodup)
    (hm : e.sat ∈ l.map Satellite.sat) (hg : ∀ s ∈ l, s.gnss = e.gnss) :
    updateFirst e l = some (l.map (upd e)) := by
  induction l with
  | nil => simp at hm
  | cons a l ih =>
    rw [List.map_cons, List.nodup_cons] at hn
    rw [updateFirst]
    split
    · rename_i h
      unfold addEph
      rw [if_neg (by simp [hg a List.mem_cons_self]), if_neg (by simp [h])]
      simp only [Option.bind_eq_bind, Option.bind_some, List.map_cons]
      have : l.map (upd e) = l := by
        conv_rhs => rw [← List.map_id l]
        refine List.map_congr_left fun s hs => ?_
        unfold upd
        rw [if_neg]; · rfl
        intro hc; exact hn.1 (by rw [h, ← hc]; exact List.mem_map_of_mem hs)
      rw [this]
      unfold upd; rw [if_pos h]
    · rename_i h
      rw [List.map_cons, List.mem_cons] at hm
      rcases hm with hm | hm
      · exact absurd hm.symm h
      rw [ih hn.2 hm (fun s hs => hg s (List.mem_cons_of_mem _ hs))]
      simp only [Option.bind_eq_bind, Option.bind_some, List.map_cons]
      congr 2
      unfold upd; rw [if_neg h]

theorem lastN_mem {α : Type} {n : Nat} {l : List α} {x : α} (h : x ∈ lastN n l) : x ∈ l :=
  List.mem_of_mem_drop h

theorem lastN_snoc {α : Type} (n : Nat) (hn : 0 < n) (l : List α) (x : α) :
    lastN n (l ++ [x]) = (if (lastN n l).length = n then (lastN n l).drop 1 else lastN n l) ++ [x] := by
  unfold lastN
  simp only [List.length_append, List.length_drop, List.length_singleton]
  split
  · rename_i h
    rw [List.drop_drop, List.drop_append_of_le_length (by omega)]
    congr 2; omega
  · rename_i h
    rw [List.drop_append_of_le_length (by omega)]
    congr 2; omega

theorem discoveries_snoc (ids : List Nat) (n : Nat) :
    discoveries (ids ++ [n]) = if n ∈ lastN 29 (discoveries ids) then discoveries ids else discoveries ids ++ [n] := by
  unfold discoveries
  rw [List.foldl_append]; rfl

theorem present_snoc (ids : List Nat) (n : Nat) :
    present (ids ++ [n]) = if n ∈ present ids then present ids
      else (if (present ids).length = 29 then (present ids).drop 1 else present ids) ++ [n] := by
  unfold present
  rw [discoveries_snoc]
  split
  · rfl
  · rw [lastN_snoc 29 (by omega)]

theorem present_nodup (ids : List Nat) : (present ids).Nodup := by
  obtain ⟨k, hk⟩ : ∃ k, ids.length = k := ⟨_, rfl⟩
  induction k generalizing ids with
  | zero => rw [List.length_eq_zero_iff] at hk; subst hk; simp [present, discoveries, lastN]
  | succ k ih =>
    rcases List.eq_nil_or_concat ids with rfl | ⟨l, x, rfl⟩
    · simp at hk
    rw [List.concat_eq_append] at hk ⊢
    have := ih l (by simpa using hk)
    rw [present_snoc]
    split
    · exact this
    · rename_i h
      rw [List.nodup_append]
      refine ⟨?_, by simp, ?_⟩
      · split
        · exact this.sublist (List.drop_sublist _ _)
        · exact this
      · intro a ha b hb
        simp at hb; subst hb
        rintro rfl
        apply h
        split at ha
        · exact List.mem_of_mem_drop ha
        · exact ha

/-- Deliveries to one constellation. -/
def runL : List Satellite → List Eph → Option (List Satellite)
  | l, [] => some l
  | l, e :: es => do let l' ← addEphTo e l; runL l' es

theorem runL_snoc (l : List Satellite) (es : List Eph) (e : Eph) :
    runL l (es ++ [e]) = (runL l es).bind (addEphTo e) := by
  induction es generalizing l with
  | nil => simp [runL]
  | cons a es ih =>
    simp only [List.cons_append, runL, Option.bind_eq_bind]
    cases addEphTo a l with
    | none => rfl
    | some l' => simp only [Option.bind_some]; exact ih l'

theorem runL_spec (g : Nat) (es : List Eph) (hg : ∀ e ∈ es, e.gnss = g) (hn : ∀ e ∈ es, Norm e.toe) :
    ∃ l, runL [] es = some l ∧ l.map Satellite.sat = present (es.map Eph.sat) ∧
      ∀ s ∈ l, s.gnss = g ∧ TrackedSince es s := by
  obtain ⟨k, hk⟩ : ∃ k, es.length = k := ⟨_, rfl⟩
  induction k generalizing es with
  | zero =>
    rw [List.length_eq_zero_iff] at hk; subst hk
    exact ⟨[], rfl, by simp [present, discoveries, lastN], by simp⟩
  | succ k ih =>
    rcases List.eq_nil_or_concat es with rfl | ⟨es, x, rfl⟩
    · simp at hk
    rw [List.concat_eq_append] at hk hg hn ⊢
    obtain ⟨l, h1, h2, h3⟩ := ih es (fun e he => hg e (by simp [he])) (fun e he => hn e (by simp [he]))
      (by simpa using hk)
    have hx : Norm x.toe := hn x (by simp)
    have hxg : x.gnss = g := hg x (by simp)
    have hnd : (l.map Satellite.sat).Nodup := h2 ▸ present_nodup _
    rw [runL_snoc, h1, Option.bind_some]
    -- extending the tracking of a satellite that stays
    have hext : ∀ s ∈ l, s.sat ∈ present ((es ++ [x]).map Eph.sat) → TrackedSince (es ++ [x]) (upd x s) := by
      intro s hs hp
      obtain ⟨_, h₁, e, h₂, rfl, t2, t3, t4, t5⟩ := h3 s hs
      refine ⟨h₁, e, h₂ ++ [x], by simp, by rw [upd_sat]; exact t2, by rw [upd_sat]; exact t3, ?_, ?_⟩
      · intro p q hpq
        rw [upd_sat]
        rcases List.eq_nil_or_concat q with rfl | ⟨q', y, rfl⟩
        · rw [List.append_nil] at hpq
          rw [← hpq]
          simpa using hp
        · rw [List.concat_eq_append, ← List.append_assoc] at hpq
          exact t4 p q' (List.append_inj' hpq rfl).1
      · rw [upd_sat, show e :: (h₂ ++ [x]) = (e :: h₂) ++ [x] from rfl, List.filter_append]
        by_cases hsx : s.sat = x.sat
        · rw [show List.filter (fun x_1 : Eph => decide (x_1.sat = s.sat)) [x] = [x] by simp [hsx]]
          unfold upd
          rw [if_pos hsx]
          refine expected_snoc _ _ x ?_ hx t5
          intro e' he'
          exact hn e' (by
            have := (List.mem_filter.1 he').1
            simp at this ⊢; tauto)
        · rw [show List.filter (fun x_1 : Eph => decide (x_1.sat = s.sat)) [x] = [] by simp [Ne.symm hsx],
            List.append_nil]
          unfold upd; rw [if_neg hsx]; exact t5
    unfold addEphTo
    cases hf : find x.sat l with
    | some s0 =>
      have hm : x.sat ∈ l.map Satellite.sat := by
        by_contra hc; rw [← find_none, hf] at hc; cases hc
      have hp : present ((es ++ [x]).map Eph.sat) = present (es.map Eph.sat) := by
        rw [List.map_append, List.map_singleton, present_snoc, if_pos (h2 ▸ hm)]
      refine ⟨l.map (upd x), updateFirst_spec x l hnd hm (fun s hs => by rw [(h3 s hs).1, hxg]), ?_, ?_⟩
      · rw [hp, ← h2, List.map_map]
        exact List.map_congr_left fun s _ => upd_sat x s
      · intro s hs
        obtain ⟨s', hs', rfl⟩ := List.mem_map.1 hs
        exact ⟨by rw [upd_gnss]; exact (h3 s' hs').1, hext s' hs' (by
          rw [hp, ← h2]; exact List.mem_map_of_mem hs')⟩
    | none =>
      have hm : x.sat ∉ l.map Satellite.sat := find_none.1 hf
      have hm' : x.sat ∉ present (es.map Eph.sat) := h2 ▸ hm
      have hlen : l.length = (present (es.map Eph.sat)).length := by rw [← h2]; simp
      have hp : present ((es ++ [x]).map Eph.sat)
          = ((if l.length = CAP then l.drop 1 else l).map Satellite.sat) ++ [x.sat] := by
        rw [List.map_append, List.map_singleton, present_snoc, if_neg hm', hlen]
        unfold CAP
        split
        · rw [List.map_drop, h2]
        · rw [h2]
      have hadd : addEph ⟨x.gnss, x.sat, []⟩ x = some ⟨x.gnss, x.sat, insertEph x []⟩ := by
        unfold addEph; simp
      simp only [hadd, Option.bind_eq_bind, Option.bind_some]
      refine ⟨_, rfl, ?_, ?_⟩
      · rw [hp]; simp
      · intro s hs
        rcases List.mem_append.1 hs with hs | hs
        · have hsl : s ∈ l := by
            split at hs
            · exact List.mem_of_mem_drop hs
            · exact hs
          have hsat : s.sat ≠ x.sat := fun hc => hm (hc ▸ List.mem_map_of_mem hsl)
          have hu : upd x s = s := by unfold upd; rw [if_neg hsat]
          refine ⟨(h3 s hsl).1, ?_⟩
          have := hext s hsl (by rw [hp]; exact List.mem_append_left _ (List.mem_map_of_mem hs))
          rwa [hu] at this
        · simp at hs; subst hs
          refine ⟨hxg, es, x, [], by simp, rfl, hm', ?_, ?_⟩
          · intro p q hpq
            have hp0 : p = [] := by
              cases p with
              | nil => rfl
              | cons a b => rw [List.cons_append] at hpq; exact absurd hpq (by simp)
            subst hp0
            show x.sat ∈ _
            rw [hp]; simp
          · have := expected_snoc [] [] x (by simp) hx expected_nil
            simpa using this

end Verif.Sat
