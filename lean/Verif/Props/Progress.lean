import Mathlib.Tactic.Linarith
import Mathlib.Tactic.FieldSimp
import Mathlib.Tactic.Ring
import Mathlib.Tactic.NormNum
import Mathlib.Tactic.Positivity
import Verif.Model.Progress

/-!
# C125: the progress display

The bar always has its width, shows the completed part to half a step of its theme, is full at the
end and is printed at most once in 34 ms; the estimate of the remaining time is the right one as
long as it fits into an `int`, and undefined behaviour otherwise.
-/
namespace Verif.Props.Progress
open Verif.Progress
open Verif.Utils (PField msToStamp)

/-! ## The cells -/

theorem mapM_some {α β : Type} (f : α → Option β) (g : α → β) (l : List α)
    (h : ∀ a ∈ l, f a = some (g a)) : l.mapM f = some (l.map g) := by
  induction l with
  | nil => rfl
  | cons a l ih =>
    rw [List.mapM_cons, h a (by simp), ih (fun x hx => h x (List.mem_cons_of_mem _ hx))]
    rfl

/-- What cell `i` should show for the position `p`: full, blank, or the step of the theme that is
closest to the part of the cell that is covered. -/
def Shows (bars : List String) (p : ℚ) (i : ℕ) (s : String) : Prop :=
  ((i : ℚ) + 1 ≤ p → bars.getLast? = some s) ∧
  (p < i → s = " ") ∧
  ((i : ℚ) ≤ p → p < i + 1 → ∃ k : ℕ, bars[k]? = some s ∧
    |(k : ℚ) - (p - i) * ((bars.length : ℚ) - 1)| ≤ 1 / 2)

theorem cell_shows (bars : List String) (hb : bars ≠ []) (p : ℚ) (i : ℕ) :
    ∃ s, cell bars (.fin p) i = some s ∧ Shows bars p i s := by
  have hlen : 1 ≤ bars.length := List.length_pos_iff.2 hb
  have hlq : (1 : ℚ) ≤ bars.length := by exact_mod_cast hlen
  unfold cell
  simp only
  by_cases h1 : (i : ℤ) < ⌊p⌋
  · have hp : ((i : ℤ) : ℚ) + 1 ≤ p := by
      have h2 : (i : ℤ) + 1 ≤ ⌊p⌋ := h1
      have := Int.le_floor.1 h2
      push_cast at this
      exact this
    push_cast at hp
    rw [if_pos h1]
    obtain ⟨s, hs⟩ : ∃ s, bars.getLast? = some s := ⟨_, List.getLast?_eq_some_getLast hb⟩
    refine ⟨s, hs, fun _ => hs, fun h => ?_, fun _ h => ?_⟩
    · exact absurd h (by push Not; linarith)
    · exact absurd h (by push Not; linarith)
  · rw [if_neg h1]
    by_cases h2 : (i : ℤ) = ⌊p⌋
    · rw [if_pos h2]
      have hfl : ((⌊p⌋ : ℤ) : ℚ) = i := by rw [← h2]; simp
      have hle : (i : ℚ) ≤ p := by rw [← hfl]; exact Int.floor_le p
      have hlt : p < i + 1 := by rw [← hfl]; exact Int.lt_floor_add_one p
      rw [hfl]
      set x : ℚ := (p - i) * ((bars.length : ℚ) - 1) with hx
      have hx0 : 0 ≤ x := mul_nonneg (by linarith) (by linarith)
      have hx1 : x ≤ (bars.length : ℚ) - 1 := by
        have : (p - i) * ((bars.length : ℚ) - 1) ≤ 1 * ((bars.length : ℚ) - 1) :=
          mul_le_mul_of_nonneg_right (by linarith) (by linarith)
        linarith
      have hf0 : 0 ≤ ⌊x + 1 / 2⌋ := Int.floor_nonneg.2 (by linarith)
      have hk : ((roundHalfUp x : ℕ) : ℤ) = ⌊x + 1 / 2⌋ := by
        unfold roundHalfUp
        exact Int.toNat_of_nonneg hf0
      have hkq : ((roundHalfUp x : ℕ) : ℚ) = ((⌊x + 1 / 2⌋ : ℤ) : ℚ) := by
        rw [← hk]; simp
      have hklt : roundHalfUp x < bars.length := by
        have : ((roundHalfUp x : ℕ) : ℚ) < bars.length := by
          rw [hkq]
          have := Int.floor_le (x + 1 / 2)
          linarith
        exact_mod_cast this
      refine ⟨bars[roundHalfUp x], List.getElem?_eq_getElem hklt, fun h => ?_, fun h => ?_,
        fun _ _ => ⟨roundHalfUp x, List.getElem?_eq_getElem hklt, ?_⟩⟩
      · exact absurd h (by push Not; linarith)
      · exact absurd h (by push Not; linarith)
      · rw [hkq, abs_le]
        have a1 := Int.floor_le (x + 1 / 2)
        have a2 := Int.lt_floor_add_one (x + 1 / 2)
        constructor <;> linarith
    · rw [if_neg h2]
      have hlt : p < i := by
        have : ⌊p⌋ < (i : ℤ) := by omega
        have := Int.floor_lt.1 this
        simpa using this
      refine ⟨" ", rfl, fun h => ?_, fun _ => rfl, fun h => ?_⟩
      · exact absurd h (by push Not; linarith)
      · exact absurd h (by push Not; linarith)

/-- The bar has its width; each cell is full, blank or the closest step of the theme. -/
theorem C125_cells (bars : List String) (hb : bars ≠ []) (width total completed : ℤ)
    (ht : 0 < total) :
    ∃ cs, cells bars width total completed = some cs ∧ cs.length = width.toNat ∧
      ∀ i (hi : i < cs.length),
        Shows bars ((width : ℚ) * ((completed : ℚ) / total)) i cs[i] := by
  have htq : (total : ℚ) ≠ 0 := by exact_mod_cast ht.ne'
  have hpos : Dbl.scale width (Dbl.div completed total) =
      .fin ((width : ℚ) * ((completed : ℚ) / total)) := by
    unfold Dbl.div
    rw [if_neg htq]
    rfl
  choose g hg hs using cell_shows bars hb ((width : ℚ) * ((completed : ℚ) / total))
  refine ⟨(List.range width.toNat).map g, ?_, by simp, ?_⟩
  · unfold cells
    simp only [hpos]
    exact mapM_some _ g _ (fun a _ => hg a)
  · intro i hi
    simp only [List.getElem_map, List.getElem_range]
    exact hs i

/-- When everything is completed, every cell is full. -/
theorem C125_full (bars : List String) (hb : bars ≠ []) (width total : ℤ) (ht : 0 < total)
    (hw : 0 ≤ width) :
    cells bars width total total =
      some (List.replicate width.toNat (bars.getLast hb)) := by
  obtain ⟨cs, hc, hl, hs⟩ := C125_cells bars hb width total total ht
  rw [hc]
  congr 1
  apply List.ext_getElem
  · simp [hl]
  · intro i h1 h2
    have h := (hs i h1).1
    have htq : (total : ℚ) ≠ 0 := by exact_mod_cast ht.ne'
    rw [div_self htq, mul_one] at h
    have hi : (i : ℚ) + 1 ≤ width := by
      have : (i : ℤ) + 1 ≤ width := by omega
      exact_mod_cast this
    have := h hi
    rw [List.getLast?_eq_some_getLast hb] at this
    simp [Option.some.inj this]

/-- 37 of 80 in a bar of 8 cells. -/
example : cells solid 8 80 37 = some ["█", "█", "█", "▊", " ", " ", " ", " "] := by
  decide +kernel

/-! ## The throttle -/

/-- What a call does to the times, whether or not it is defined otherwise. -/
theorem print_spec (b : Bar) (now c : ℤ) (t : Option ℚ) (b' : Bar) (l : Option Line)
    (h : print b now c t = some (b', l)) :
    b'.total = b.total ∧ b'.width = b.width ∧ b'.bars = b.bars ∧
      ∃ s last, (b.start now t).started = some (s, last) ∧
        ((l = none ∧ b'.started = some (s, last) ∧ ¬ (now - last > 33) ∧ c ≠ b.total) ∨
         (l ≠ none ∧ b'.started = some (s, now) ∧ (now - last > 33 ∨ c = b.total))) := by
  have e1 : (b.start now t).total = b.total := by unfold Bar.start; split <;> rfl
  have e2 : (b.start now t).width = b.width := by unfold Bar.start; split <;> rfl
  have e3 : (b.start now t).bars = b.bars := by unfold Bar.start; split <;> rfl
  unfold print at h
  simp only at h
  cases hst : (b.start now t).started with
  | none => rw [hst] at h; simp at h
  | some p =>
    obtain ⟨s, last⟩ := p
    rw [hst] at h
    simp only [e1] at h
    by_cases hc : now - last > 33 ∨ c = b.total
    · rw [if_pos hc] at h
      split at h
      · split at h
        · simp only [Option.some.injEq, Prod.mk.injEq] at h
          obtain ⟨rfl, rfl⟩ := h
          exact ⟨rfl, e2, e3, s, last, rfl, Or.inr ⟨by simp, rfl, hc⟩⟩
        · simp only [Option.some.injEq, Prod.mk.injEq] at h
          obtain ⟨rfl, rfl⟩ := h
          exact ⟨rfl, e2, e3, s, last, rfl, Or.inr ⟨by simp, rfl, hc⟩⟩
      · simp at h
    · rw [if_neg hc] at h
      simp only [Option.some.injEq, Prod.mk.injEq] at h
      obtain ⟨rfl, rfl⟩ := h
      push Not at hc
      exact ⟨e1, e2, e3, s, last, rfl, Or.inl ⟨rfl, hst, by omega, hc.2⟩⟩

/-- The number of lines printed before the end. -/
def early (total : ℤ) (ls : List (ℤ × ℤ × Line)) : ℕ :=
  (ls.filter fun l => decide (l.2.1 ≠ total)).length

/-- The times do not decrease from `a` on and stay below `z`. -/
def Mono : ℤ → List (ℤ × ℤ × Option ℚ) → ℤ → Prop
  | a, [], z => a ≤ z
  | a, c :: cs, z => a ≤ c.1 ∧ Mono c.1 cs z

theorem Mono.le {a z : ℤ} {cs : List (ℤ × ℤ × Option ℚ)} (h : Mono a cs z) : a ≤ z := by
  induction cs generalizing a with
  | nil => exact h
  | cons c cs ih => exact le_trans h.1 (ih h.2)

theorem runBar_early (cs : List (ℤ × ℤ × Option ℚ)) (b b' : Bar) (ls : List (ℤ × ℤ × Line))
    (s last a z : ℤ) (hst : b.started = some (s, last)) (hl : last ≤ a) (hm : Mono a cs z)
    (h : runBar b cs = some (b', ls)) : 34 * (early b.total ls : ℤ) ≤ z - last := by
  induction cs generalizing b ls last a with
  | nil =>
    simp only [runBar, Option.some.injEq, Prod.mk.injEq] at h
    obtain ⟨_, rfl⟩ := h
    have := hm.le
    simp only [early, List.filter_nil, List.length_nil]
    push_cast
    omega
  | cons c cs ih =>
    obtain ⟨now, c, t⟩ := c
    obtain ⟨hm1, hm2⟩ := hm
    simp only at hm1 hm2
    unfold runBar at h
    cases hp : print b now c t with
    | none => rw [hp] at h; simp at h
    | some r =>
      obtain ⟨b1, l⟩ := r
      rw [hp] at h
      simp only at h
      cases hr : runBar b1 cs with
      | none => rw [hr] at h; simp at h
      | some r2 =>
        obtain ⟨b2, ls2⟩ := r2
        rw [hr] at h
        simp only [Option.some.injEq, Prod.mk.injEq] at h
        obtain ⟨rfl, rfl⟩ := h
        obtain ⟨ht, _, _, s', last', hs', hcase⟩ := print_spec b now c t b1 l hp
        have hss : (b.start now t).started = some (s, last) := by
          unfold Bar.start; rw [hst]; exact hst
        rw [hss] at hs'
        simp only [Option.some.injEq, Prod.mk.injEq] at hs'
        obtain ⟨rfl, rfl⟩ := hs'
        rcases hcase with ⟨rfl, hb1, _, _⟩ | ⟨hl1, hb1, hcond⟩
        · have := ih b1 ls2 last now hb1 (by omega) hm2 hr
          rw [ht] at this
          simpa using this
        · have := ih b1 ls2 now now hb1 le_rfl hm2 hr
          rw [ht] at this
          obtain ⟨x, rfl⟩ := Option.ne_none_iff_exists'.1 hl1
          simp only [Option.map_some, Option.toList_some, List.cons_append, List.nil_append]
          by_cases hct : c = b.total
          · have e : early b.total ((now, c, x) :: ls2) = early b.total ls2 := by
              simp [early, hct]
            rw [e]
            omega
          · have e : early b.total ((now, c, x) :: ls2) = early b.total ls2 + 1 := by
              simp [early, hct]
            rw [e]
            push_cast
            omega

/-- Before everything is completed, at most one line in 34 ms is printed. -/
theorem C125_throttle (cs : List (ℤ × ℤ × Option ℚ)) (b b' : Bar) (ls : List (ℤ × ℤ × Line))
    (hst : b.started = none) (now z : ℤ) (c : ℤ) (t : Option ℚ)
    (hm : Mono now cs z) (h : runBar b ((now, c, t) :: cs) = some (b', ls)) :
    34 * (early b.total ls : ℤ) ≤ z - now := by
  unfold runBar at h
  cases hp : print b now c t with
  | none => rw [hp] at h; simp at h
  | some r =>
    obtain ⟨b1, l⟩ := r
    rw [hp] at h
    simp only at h
    cases hr : runBar b1 cs with
    | none => rw [hr] at h; simp at h
    | some r2 =>
      obtain ⟨b2, ls2⟩ := r2
      rw [hr] at h
      simp only [Option.some.injEq, Prod.mk.injEq] at h
      obtain ⟨rfl, rfl⟩ := h
      obtain ⟨ht, _, _, s', last', hs', hcase⟩ := print_spec b now c t b1 l hp
      have hss : (b.start now t).started = some (now, now) := by
        unfold Bar.start; rw [hst]
      rw [hss] at hs'
      simp only [Option.some.injEq, Prod.mk.injEq] at hs'
      obtain ⟨rfl, rfl⟩ := hs'
      rcases hcase with ⟨rfl, hb1, _, _⟩ | ⟨hl1, hb1, hcond⟩
      · have := runBar_early cs b1 b2 ls2 now now now z hb1 le_rfl hm hr
        rw [ht] at this
        simpa using this
      · have := runBar_early cs b1 b2 ls2 now now now z hb1 le_rfl hm hr
        rw [ht] at this
        obtain ⟨x, rfl⟩ := Option.ne_none_iff_exists'.1 hl1
        have hct : c = b.total := by
          rcases hcond with h | h
          · omega
          · exact h
        have e : early b.total ((now, c, x) :: ls2) = early b.total ls2 := by
          simp [early, hct]
        simpa [e] using this

/-! ## The estimate -/

theorem toInt_fin (q : ℚ) (h0 : 0 ≤ q) :
    Dbl.toInt (.fin q) = if q < 2 ^ 31 then some ⌊q⌋ else none := by
  have hz : Int.tdiv q.num q.den = ⌊q⌋ := by
    rw [Int.tdiv_eq_ediv_of_nonneg (Rat.num_nonneg.2 h0), Rat.floor_def']
  unfold Dbl.toInt
  simp only [hz]
  have hf : 0 ≤ ⌊q⌋ := Int.floor_nonneg.2 h0
  by_cases h : q < 2 ^ 31
  · have : ⌊q⌋ < 2 ^ 31 := Int.floor_lt.2 (by push_cast; exact h)
    rw [if_pos h, if_pos ⟨by omega, this⟩]
  · have : ¬ ⌊q⌋ < 2 ^ 31 := by
      rw [Int.floor_lt]
      push_cast
      exact h
    rw [if_neg h, if_neg (fun hh => this hh.2)]

/-- The time still needed at the average pace so far. -/
def estimate (total completed elapsed : ℤ) : ℚ :=
  (elapsed : ℚ) * ((total : ℚ) - completed) / completed

theorem remaining_eq (total completed elapsed : ℤ) (hc : 0 < completed) :
    remaining total completed elapsed = .fin (estimate total completed elapsed) := by
  have hcq : (completed : ℚ) ≠ 0 := by exact_mod_cast hc.ne'
  unfold remaining estimate Dbl.div
  by_cases he0 : (elapsed : ℚ) = 0
  · have h1 : (elapsed : ℚ) / 1000 = 0 := by rw [he0]; simp
    have hcp : (0 : ℚ) < completed := by exact_mod_cast hc
    rw [if_pos h1, if_neg hcq, if_pos hcp]
    simp [Dbl.divBy, Dbl.scale, he0]
  · have h1 : (elapsed : ℚ) / 1000 ≠ 0 := by
      intro h
      apply he0
      linarith
    have h2 : (completed : ℚ) / (elapsed / 1000) ≠ 0 := div_ne_zero hcq h1
    rw [if_neg h1]
    unfold Dbl.divBy Dbl.div
    simp only
    rw [if_neg h2]
    unfold Dbl.scale
    simp only [Dbl.fin.injEq]
    field_simp

/-- A call that prints shows the fraction that is completed, the elapsed time and the estimate of
the time still needed, as long as both times fit into an `int`. -/
theorem C125_line (b : Bar) (hb : b.bars ≠ []) (now c : ℤ) (t : Option ℚ) (s last : ℤ)
    (hst : (b.start now t).started = some (s, last)) (ht : 0 < b.total) (hc : 0 < c)
    (hct : c ≤ b.total) (hnow : s ≤ now) (hp : now - last > 33 ∨ c = b.total)
    (h1 : estimate b.total c (now - s) < 2 ^ 31) (h2 : now - s < 2 ^ 31) :
    ∃ b' cs rate, print b now c t = some (b', some ⟨cs, .fin ((c : ℚ) / b.total),
      msToStamp (now - s), msToStamp ⌊estimate b.total c (now - s)⌋, rate⟩) ∧
      cells b.bars b.width b.total c = some cs := by
  have e1 : (b.start now t).total = b.total := by unfold Bar.start; split <;> rfl
  have e2 : (b.start now t).width = b.width := by unfold Bar.start; split <;> rfl
  have e3 : (b.start now t).bars = b.bars := by unfold Bar.start; split <;> rfl
  obtain ⟨cs, hcs, _, _⟩ := C125_cells b.bars hb b.width b.total c ht
  have hcq : (0 : ℚ) < c := by exact_mod_cast hc
  have hest : 0 ≤ estimate b.total c (now - s) := by
    unfold estimate
    have a1 : (0 : ℚ) ≤ ((now - s : ℤ) : ℚ) := by exact_mod_cast (by omega : (0 : ℤ) ≤ now - s)
    have a2 : (0 : ℚ) ≤ (b.total : ℚ) - c := by
      have : (c : ℚ) ≤ b.total := by exact_mod_cast hct
      linarith
    positivity
  have hrem : (remaining b.total c (now - s)).toInt =
      some ⌊estimate b.total c (now - s)⌋ := by
    rw [remaining_eq _ _ _ hc, toInt_fin _ hest, if_pos h1]
  have hel : (Dbl.fin ((now - s : ℤ) : ℚ)).toInt = some (now - s) := by
    rw [toInt_fin _ (by exact_mod_cast (by omega : (0 : ℤ) ≤ now - s)), if_pos (by exact_mod_cast h2),
      Int.floor_intCast]
  have hfr : Dbl.div (c : ℚ) b.total = .fin ((c : ℚ) / b.total) := by
    unfold Dbl.div
    rw [if_neg (by exact_mod_cast ht.ne')]
  unfold print
  simp only [hst, e1, e2, e3, hcs, hrem, hel, hfr, if_pos hp]
  cases (b.start now t).tStart <;> cases t <;> exact ⟨_, cs, _, rfl, rfl⟩

/-- The calls of a program: the first one counts from zero, all count the completed items. -/
def Calls (total : ℤ) (cs : List (ℤ × ℤ × Option ℚ)) : Prop :=
  ∀ c ∈ cs, 0 < c.2.1 ∧ c.2.1 ≤ total

/-- The full claim: however long it takes, showing the progress is defined. -/
def C125_statement : Prop :=
  ∀ (b : Bar), b.bars ≠ [] → b.started = none → 0 < b.total → b.total < 2 ^ 31 →
    ∀ now c t cs z, Calls b.total ((now, c, t) :: cs) → Mono now cs z →
      runBar b ((now, c, t) :: cs) ≠ none

/-- The second call, 34 ms after the first, after one of a hundred million steps: the estimate of
39 days does not fit. -/
theorem C125_long_violated (t0 t1 : Option ℚ) (tl el : ℚ) (r : Dbl) (now : ℤ) :
    runBar (Bar.make 100000000 50 t0 tl el r) [(now, 1, t0), (now + 34, 1, t1)] = none := by
  have h1 : print (Bar.make 100000000 50 t0 tl el r) now 1 t0 =
      some ((Bar.make 100000000 50 t0 tl el r).start now t0, none) := by
    simp [print, Bar.start, Bar.make]
  have h2 : print ((Bar.make 100000000 50 t0 tl el r).start now t0) (now + 34) 1 t1 = none := by
    have hr : (remaining 100000000 1 34).toInt = none := by
      rw [remaining_eq _ _ _ (by norm_num), toInt_fin _ (by unfold estimate; norm_num)]
      rw [if_neg (by unfold estimate; norm_num)]
    have e : now + 34 - now = 34 := by ring
    simp only [print, Bar.start, Bar.make, e]
    rw [if_pos (Or.inl (by norm_num))]
    rw [hr]
    cases cells solid 50 100000000 1 <;> rfl
  simp only [runBar, h1, h2]

theorem C125_statement_false : ¬ C125_statement := by
  intro h
  apply h (Bar.make 100000000 50 none 0 0 .nan) (by decide) rfl (by decide) (by decide) 0 1 none
    [(34, 1, none)] 34
  · intro c hc
    simp only [List.mem_cons, List.not_mem_nil, or_false] at hc
    rcases hc with rfl | rfl <;> decide
  · exact ⟨by decide, le_rfl⟩
  · exact C125_long_violated none none 0 0 .nan 0

/-- Nothing counted, or nothing to count: undefined behaviour as soon as a line is printed. -/
theorem C125_zero_violated (b : Bar) (now : ℤ) (t : Option ℚ) (s last : ℤ)
    (hst : (b.start now t).started = some (s, last))
    (hp : now - last > 33 ∨ 0 = b.total) : print b now 0 t = none := by
  have e1 : (b.start now t).total = b.total := by unfold Bar.start; split <;> rfl
  have hr : (remaining b.total 0 (now - s)).toInt = none := by
    unfold remaining Dbl.div
    push_cast
    by_cases he : ((now : ℚ) - s) / 1000 = 0
    · rw [if_pos he]
      simp [Dbl.divBy, Dbl.scale, Dbl.toInt]
    · rw [if_neg he]
      simp only [zero_div, Dbl.divBy, Dbl.div, if_true]
      split
      · rfl
      · split
        · simp [Dbl.scale, Dbl.toInt]
        · simp [Dbl.scale, Dbl.toInt]
  unfold print
  simp only [hst, e1]
  rw [if_pos hp, hr]
  cases cells (b.start now t).bars (b.start now t).width b.total 0 <;> rfl

theorem runBar_safe (cs : List (ℤ × ℤ × Option ℚ)) (b : Bar) (hb : b.bars ≠ [])
    (ht : 0 < b.total) (s last a z : ℤ) (hst : b.started = some (s, last)) (hs : s ≤ a)
    (hm : Mono a cs z) (hc : Calls b.total cs) (hz : (z - s) * b.total < 2 ^ 31) :
    ∃ r, runBar b cs = some r := by
  induction cs generalizing b last a with
  | nil => exact ⟨_, rfl⟩
  | cons c cs ih =>
    obtain ⟨now, c, t⟩ := c
    obtain ⟨hm1, hm2⟩ := hm
    simp only at hm1 hm2
    obtain ⟨hc1, hc2⟩ := hc (now, c, t) (by simp)
    simp only at hc1 hc2
    have hss : (b.start now t).started = some (s, last) := by
      unfold Bar.start; rw [hst]; exact hst
    have hnz := hm2.le
    have hdef : ∃ r, print b now c t = some r := by
      by_cases hp : now - last > 33 ∨ c = b.total
      · have hbound : (now - s) * b.total < 2 ^ 31 := by
          have : (now - s) * b.total ≤ (z - s) * b.total :=
            mul_le_mul_of_nonneg_right (by omega) ht.le
          omega
        have hest : estimate b.total c (now - s) < 2 ^ 31 := by
          have hcq : (1 : ℚ) ≤ c := by exact_mod_cast hc1
          have h0 : (0 : ℚ) ≤ ((now - s : ℤ) : ℚ) := by
            exact_mod_cast (by omega : (0 : ℤ) ≤ now - s)
          have htc : (0 : ℚ) ≤ (b.total : ℚ) - c := by
            have : (c : ℚ) ≤ b.total := by exact_mod_cast hc2
            linarith
          have hb' : ((now - s : ℤ) : ℚ) * b.total < 2 ^ 31 := by exact_mod_cast hbound
          unfold estimate
          rw [div_lt_iff₀ (by linarith)]
          have : ((now - s : ℤ) : ℚ) * ((b.total : ℚ) - c) ≤ ((now - s : ℤ) : ℚ) * b.total :=
            mul_le_mul_of_nonneg_left (by linarith) h0
          nlinarith
        have hlt : now - s < 2 ^ 31 := by
          have : (now - s) * 1 ≤ (now - s) * b.total :=
            mul_le_mul_of_nonneg_left (by omega) (by omega)
          omega
        obtain ⟨b', cs', rate, h, _⟩ :=
          C125_line b hb now c t s last hss ht hc1 hc2 (by omega) hp hest hlt
        exact ⟨_, h⟩
      · have e1 : (b.start now t).total = b.total := by unfold Bar.start; split <;> rfl
        unfold print
        simp only [hss, e1, if_neg hp]
        exact ⟨_, rfl⟩
    obtain ⟨⟨b1, l⟩, hp⟩ := hdef
    obtain ⟨h1, _, h3, s', last', hs', hcase⟩ := print_spec b now c t b1 l hp
    rw [hss] at hs'
    simp only [Option.some.injEq, Prod.mk.injEq] at hs'
    obtain ⟨rfl, rfl⟩ := hs'
    have hrest : ∃ last', b1.started = some (s, last') := by
      rcases hcase with ⟨_, h, _⟩ | ⟨_, h, _⟩
      · exact ⟨_, h⟩
      · exact ⟨_, h⟩
    obtain ⟨l', hl'⟩ := hrest
    obtain ⟨r, hr⟩ := ih b1 (by rw [h3]; exact hb) (by rw [h1]; exact ht) l' now hl' (by omega) hm2
      (by rw [h1]; exact fun x hx => hc x (List.mem_cons_of_mem _ hx)) (by rw [h1]; exact hz)
    obtain ⟨b2, ls⟩ := r
    unfold runBar
    rw [hp]
    simp only [hr]
    exact ⟨_, rfl⟩

/-- Showing the progress is defined for every run whose time in milliseconds multiplied with the
total fits into an `int`. -/
theorem C125_safe_partial (b : Bar) (hb : b.bars ≠ []) (hst : b.started = none) (ht : 0 < b.total)
    (now c : ℤ) (t : Option ℚ) (cs : List (ℤ × ℤ × Option ℚ)) (z : ℤ)
    (hc : Calls b.total ((now, c, t) :: cs)) (hm : Mono now cs z)
    (hz : (z - now) * b.total < 2 ^ 31) : ∃ r, runBar b ((now, c, t) :: cs) = some r := by
  have hss : (b.start now t).started = some (now, now) := by unfold Bar.start; rw [hst]
  have e1 : (b.start now t).total = b.total := by unfold Bar.start; split <;> rfl
  have e3 : (b.start now t).bars = b.bars := by unfold Bar.start; split <;> rfl
  have hb1 : ∃ r, runBar (b.start now t) ((now, c, t) :: cs) = some r :=
    runBar_safe _ (b.start now t) (by rw [e3]; exact hb) (by rw [e1]; exact ht) now now now z hss
      le_rfl ⟨le_rfl, hm⟩ (by rw [e1]; exact hc) (by rw [e1]; exact hz)
  have hidem : (b.start now t).start now t = b.start now t := by
    unfold Bar.start
    rw [hst]
  have : runBar (b.start now t) ((now, c, t) :: cs) = runBar b ((now, c, t) :: cs) := by
    unfold runBar print
    rw [hidem]
  rw [← this]
  exact hb1

/-- A run of two seconds over a thousand items. -/
example : ∃ r, runBar (Bar.make 1000 50 none 0 0 .nan)
    [(0, 1, some 0), (40, 20, some 2), (2000, 1000, some 3)] = some r :=
  C125_safe_partial _ (by decide) rfl (by decide) 0 1 _ _ 2000
    (by
      intro c hc
      simp only [List.mem_cons, List.not_mem_nil, or_false] at hc
      rcases hc with rfl | rfl | rfl <;> decide)
    ⟨by decide, by decide, le_rfl⟩ (by decide)

/-! ## The rate -/

/-- The rate stays finite as long as the clock moves between two lines. -/
theorem C125_rate (b : Bar) (t el r : ℚ) (hr : b.rate = .fin r) (he : el ≠ b.elapsedLast) :
    newRate b t el = .fin (9 / 10 * r + 1 / 10 * ((t - b.tLast) / (el - b.elapsedLast))) := by
  unfold newRate Dbl.div
  rw [if_neg (sub_ne_zero.2 he), hr]
  rfl

/-- Two lines in the same millisecond, as at the end of a run: the rate is infinite or not a
number from then on. -/
theorem C125_rate_violated (b : Bar) (t : ℚ) :
    (∀ q, newRate b t b.elapsedLast ≠ .fin q) ∧
      (∀ b' : Bar, (∀ q, b'.rate ≠ .fin q) → ∀ t' el q, newRate b' t' el ≠ .fin q) := by
  constructor
  · intro q
    unfold newRate Dbl.div
    rw [if_pos (sub_self _)]
    cases b.rate <;> split <;> (try split) <;> simp [Dbl.scale, Dbl.add]
  · intro b' hb' t' el q
    unfold newRate Dbl.div
    cases hr : b'.rate with
    | fin r => exact absurd hr (hb' r)
    | inf => split <;> (try split) <;> (try split) <;> simp [Dbl.scale, Dbl.add]
    | ninf => split <;> (try split) <;> (try split) <;> simp [Dbl.scale, Dbl.add]
    | nan => simp [Dbl.scale, Dbl.add]

end Verif.Props.Progress
