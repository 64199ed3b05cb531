import Verif.Model.Satellite
import Verif.Spec.Time
/-!
# Specification of the almanac and of the satellite manager, in terms of the history of deliveries
-/
namespace Verif.SatSpec
open Verif.Sat Verif.TimeSpec

/-- `e` is the latest delivery for its time of ephemeris. -/
def Latest (hist : List Eph) (e : Eph) : Prop :=
  ∃ h₁ h₂, hist = h₁ ++ e :: h₂ ∧ ∀ e' ∈ h₂, e'.toe ≠ e.toe

/-- The almanac a user expects after the deliveries `hist`: strictly ascending in time of
ephemeris, holding for each of them exactly the latest delivery. -/
def Expected (hist : List Eph) (alm : List Eph) : Prop :=
  alm.Pairwise (fun a b => instant a.toe < instant b.toe) ∧ ∀ e, e ∈ alm ↔ Latest hist e

/-- Gnss identifier of each constellation (ids of the receiver protocol). -/
def gnssOf : Const → Nat
  | .gps => 0
  | .gal => 2
  | .glo => 6

/-- The last `n` elements. -/
def lastN {α : Type} (n : Nat) (l : List α) : List α := l.drop (l.length - n)

/-- Discovery events: a delivered id is discovered if it is not among the last 29 discoveries. -/
def discoveries (ids : List Nat) : List Nat :=
  ids.foldl (fun d n => if n ∈ lastN 29 d then d else d ++ [n]) []

/-- Ids tracked after the deliveries `ids` (first in, first out, at most 29). -/
def present (ids : List Nat) : List Nat := lastN 29 (discoveries ids)

/-- `s` has been tracked without interruption since a delivery `e` that discovered it, and holds
exactly what was delivered for it from `e` on. -/
def TrackedSince (es : List Eph) (s : Satellite) : Prop :=
  ∃ h₁ e h₂, es = h₁ ++ e :: h₂ ∧ e.sat = s.sat ∧ s.sat ∉ present (h₁.map Eph.sat) ∧
    (∀ p q, h₂ = p ++ q → s.sat ∈ present ((h₁ ++ e :: p).map Eph.sat)) ∧
    Expected ((e :: h₂).filter fun x => x.sat = s.sat) s.almanac

/-- The ephemerides delivered to one constellation, in order. -/
def deliveredTo (c : Const) (h : List (Const × Eph)) : List Eph :=
  (h.filter fun p => p.1 = c).map Prod.snd

end Verif.SatSpec
