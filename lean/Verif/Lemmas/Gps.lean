import Verif.Model.Gps
import Verif.Spec.Gps
import Verif.Props.BitTools
import Verif.Props.Time
/-! Lemmas for gps.cxx -/
namespace Verif.Gps
open Verif.Bits Verif.BitSpec Verif.GpsSpec Verif.Props.BitTools

/-! ### Fields as digit lists -/

/-- Position in the subframe without parity of bit `j` of word `k`. -/
def place (k j : Nat) : Nat := 24 * (k - 1) + (j - 1)

def places (segs : List Seg) : List Nat :=
  segs.flatMap fun s => (List.range' s.first (s.last + 1 - s.first)).map (place s.word)

def goodSeg (s : Seg) : Bool :=
  decide (1 ≤ s.word) && decide (s.word ≤ 10) && decide (1 ≤ s.first) && decide (s.last ≤ 24)

/-- `mem` is the subframe of message `m` with the parity removed. -/
def Holds (mem : Mem) (m : List Nat) : Prop :=
  ∃ b : Nat → UInt8, (∀ r, r < 30 → mem r = some (b r)) ∧
    ∀ k j, 1 ≤ k → k ≤ 10 → 1 ≤ j → j ≤ 24 → bit b (place k j) = wordBit m k j

theorem bits_eq {m : List Nat} {b : Nat → UInt8}
    (hb : ∀ k j, 1 ≤ k → k ≤ 10 → 1 ≤ j → j ≤ 24 → bit b (place k j) = wordBit m k j)
    (segs : List Seg) (hg : segs.all goodSeg = true) : bits m segs = (places segs).map (bit b) := by
  induction segs with
  | nil => rfl
  | cons s t ih =>
    simp only [List.all_cons, Bool.and_eq_true] at hg
    have e := ih hg.2
    unfold bits places at *
    rw [List.flatMap_cons, List.flatMap_cons, List.map_append, e]
    congr 1
    rw [List.map_map]
    apply List.map_congr_left
    intro j hj
    rw [List.mem_range'_1] at hj
    simp only [goodSeg, Bool.and_eq_true, decide_eq_true_eq] at hg
    exact (hb _ _ (by omega) (by omega) (by omega) (by omega)).symm

/-- Reading a field whose positions are those of the segments. -/
theorem get_seg {mem : Mem} {m : List Nat} (h : Holds mem m) (pos len : Nat) (segs : List Seg)
    (hp : (List.range len).map (pos + ·) = places segs) (hg : segs.all goodSeg = true)
    (h1 : 1 ≤ len) (h2 : len ≤ 56) (h3 : pos + len ≤ 240) :
    getBit mem pos len = some (U m segs) ∧ getBitSigned mem pos len = some (S m segs) := by
  obtain ⟨b, hm, hb⟩ := h
  have e := C12_getBit mem b pos len h1 h2 (fun r _ hr => hm r (by omega))
  have f : bits m segs = (List.range len).map fun i => bit b (pos + i) := by
    rw [bits_eq hb segs hg, ← hp, List.map_map]; rfl
  have fe : field b pos len = U m segs := by rw [field_eq_number, U, f]
  have fl : (bits m segs).length = len := by rw [f]; simp
  rw [e.1, e.2, S, fl, fe]; exact ⟨rfl, rfl⟩

/-! ### Stripping the parity -/

theorem stripLoop_spec (ws : List Nat) : ∀ (i : Nat) (mem : Mem) (b : Nat → UInt8),
    ws.length + i ≤ 10 → (∀ w ∈ ws, w < 2 ^ 32) → (∀ r, r < 30 → mem r = some (b r)) →
    (∀ r x, mem r = some x → b r = x) →
    ∃ mem' b', stripLoop ws i mem = some mem' ∧ (∀ r, r < 30 → mem' r = some (b' r)) ∧
      (∀ p, p < 24 * i → bit b' p = bit b p) ∧
      ∀ k j, k < ws.length → j < 24 →
        bit b' (24 * (i + k) + j) = ws.getD k 0 / 2 ^ (29 - j) % 2 := by
  induction ws with
  | nil => intro i mem b _ _ hm _; exact ⟨mem, b, rfl, hm, fun _ _ => rfl, fun k j hk => by simp at hk⟩
  | cons w ws ih =>
    intro i mem b hl hw hm hb
    simp only [List.length_cons] at hl
    have hw0 : w < 2 ^ 32 := hw w (by simp)
    obtain ⟨mem1, b1, e1, hr1, ho1, hi1, -⟩ := C13_setBit mem b (i * 24) 24 (w / 2 ^ 6) (by omega)
      (by omega) (by omega) hb (fun r _ hr => by rw [hm r (by omega)]; rfl)
    obtain ⟨mem2, b2, e2, hr2, ho2, hi2⟩ := ih (i + 1) mem1 b1 (by omega)
      (fun x hx => hw x (by simp [hx]))
      (fun r hr => by rw [hr1, hm r hr]; rfl)
      (fun r x hx => by
        rw [hr1] at hx
        cases hmr : mem r with
        | none => rw [hmr] at hx; simp at hx
        | some y => rw [hmr] at hx; simpa using hx)
    refine ⟨mem2, b2, ?_, hr2, ?_, ?_⟩
    · rw [stripLoop, e1, Option.bind_some, e2]
    · intro p hp; rw [ho2 p (by omega), ho1 p (by omega)]
    · intro k j hk hj
      cases k with
      | zero =>
        rw [ho2 _ (by omega), show 24 * (i + 0) + j = i * 24 + j by omega, hi1 j hj,
          Nat.div_div_eq_div_mul, ← Nat.pow_add, show 6 + (24 - 1 - j) = 29 - j by omega]
        rfl
      | succ k =>
        have := hi2 k j (by simp only [List.length_cons] at hk; omega) hj
        rw [show 24 * (i + (k + 1)) + j = 24 * (i + 1 + k) + j by omega, this]; rfl

theorem strip_spec (m : List Nat) (hl : 10 ≤ m.length) (hw : Words32 m) :
    ∃ mem, strip (m.take 10) = some mem ∧ Holds mem m := by
  obtain ⟨mem, b, e, hr, -, hb⟩ := stripLoop_spec (m.take 10) 0 (ofList (List.replicate 30 0))
    (fun _ => 0) (by simp) (fun w h => hw w (List.mem_of_mem_take h))
    (fun r hr => by rw [ofList, List.getElem?_replicate, if_pos hr])
    (fun r x hx => by
      simp only [ofList, List.getElem?_replicate] at hx
      split at hx
      · simpa using hx
      · simp at hx)
  refine ⟨mem, e, b, hr, ?_⟩
  intro k j h1 h2 h3 h4
  have := hb (k - 1) (j - 1) (by rw [List.length_take]; omega) (by omega)
  rw [Nat.zero_add] at this
  rw [place, this, wordBit, show 29 - (j - 1) = 30 - j by omega]
  congr 2
  rw [List.getD_eq_getElem?_getD, List.getD_eq_getElem?_getD, List.getElem?_take_of_lt (by omega)]

/-! ### The three frames -/

theorem preamble {mem : Mem} {m : List Nat} (h : Holds mem m) :
    ∃ x : UInt8, mem 0 = some x ∧ x.toNat = U m [⟨1, 1, 8⟩] := by
  have e := (get_seg h 0 8 [⟨1, 1, 8⟩] (by decide) (by decide) (by omega) (by omega) (by omega)).1
  obtain ⟨b, hm, -⟩ := h
  refine ⟨b 0, hm 0 (by omega), ?_⟩
  have e' := (C12_getBit mem b 0 8 (by omega) (by omega) (fun r _ hr => hm r (by omega))).1
  rw [e] at e'
  have := field_byte b 0
  simp only [Nat.mul_zero] at this
  rw [this] at e'
  exact (Option.some.inj e').symm

theorem decode1_spec {mem : Mem} {m : List Nat} (h : Holds mem m) :
    decode1 mem = some (sub1 m, iod1 m) := by
  have g := fun pos len segs a b c d f => get_seg h pos len segs a b c d f
  unfold decode1
  rw [(g 48 10 [⟨3, 1, 10⟩] (by decide) (by decide) (by omega) (by omega) (by omega)).1,
    (g 58 2 [⟨3, 11, 12⟩] (by decide) (by decide) (by omega) (by omega) (by omega)).1,
    (g 60 4 [⟨3, 13, 16⟩] (by decide) (by decide) (by omega) (by omega) (by omega)).1,
    (g 64 6 [⟨3, 17, 22⟩] (by decide) (by decide) (by omega) (by omega) (by omega)).1,
    (g 70 2 [⟨3, 23, 24⟩] (by decide) (by decide) (by omega) (by omega) (by omega)).1,
    (g 72 1 [⟨4, 1, 1⟩] (by decide) (by decide) (by omega) (by omega) (by omega)).1,
    (g 160 8 [⟨7, 17, 24⟩] (by decide) (by decide) (by omega) (by omega) (by omega)).2,
    (g 168 8 [⟨8, 1, 8⟩] (by decide) (by decide) (by omega) (by omega) (by omega)).1,
    (g 176 16 [⟨8, 9, 24⟩] (by decide) (by decide) (by omega) (by omega) (by omega)).1,
    (g 192 8 [⟨9, 1, 8⟩] (by decide) (by decide) (by omega) (by omega) (by omega)).2,
    (g 200 16 [⟨9, 9, 24⟩] (by decide) (by decide) (by omega) (by omega) (by omega)).2,
    (g 216 22 [⟨10, 1, 22⟩] (by decide) (by decide) (by omega) (by omega) (by omega)).2]
  have hc : U m [⟨3, 23, 24⟩, ⟨8, 1, 8⟩] = U m [⟨3, 23, 24⟩] * 2 ^ 8 + U m [⟨8, 1, 8⟩] := by
    simp only [U, bits, List.flatMap_cons, List.flatMap_nil, List.append_nil, List.range',
      List.map_cons, List.map_nil, List.cons_append, List.nil_append, number, List.foldl_cons,
      List.foldl_nil]
    omega
  simp only [Option.bind_eq_bind, Option.bind_some, sub1, iod1, hc]
  rw [Nat.mul_comm (U m [⟨8, 9, 24⟩]) 16]

theorem decode2_spec {mem : Mem} {m : List Nat} (h : Holds mem m) :
    decode2 mem = some (sub2 m, iod2 m) := by
  have g := fun pos len segs a b c d f => get_seg h pos len segs a b c d f
  unfold decode2
  rw [(g 48 8 [⟨3, 1, 8⟩] (by decide) (by decide) (by omega) (by omega) (by omega)).1,
    (g 56 16 [⟨3, 9, 24⟩] (by decide) (by decide) (by omega) (by omega) (by omega)).2,
    (g 72 16 [⟨4, 1, 16⟩] (by decide) (by decide) (by omega) (by omega) (by omega)).2,
    (g 88 32 [⟨4, 17, 24⟩, ⟨5, 1, 24⟩] (by decide) (by decide) (by omega) (by omega) (by omega)).2,
    (g 120 16 [⟨6, 1, 16⟩] (by decide) (by decide) (by omega) (by omega) (by omega)).2,
    (g 136 32 [⟨6, 17, 24⟩, ⟨7, 1, 24⟩] (by decide) (by decide) (by omega) (by omega) (by omega)).1,
    (g 168 16 [⟨8, 1, 16⟩] (by decide) (by decide) (by omega) (by omega) (by omega)).2,
    (g 184 32 [⟨8, 17, 24⟩, ⟨9, 1, 24⟩] (by decide) (by decide) (by omega) (by omega) (by omega)).1,
    (g 216 16 [⟨10, 1, 16⟩] (by decide) (by decide) (by omega) (by omega) (by omega)).1,
    (g 232 1 [⟨10, 17, 17⟩] (by decide) (by decide) (by omega) (by omega) (by omega)).1]
  simp only [Option.bind_eq_bind, Option.bind_some, sub2, iod2]
  rw [Nat.mul_comm (U m [⟨10, 1, 16⟩]) 16]
  by_cases c : U m [⟨10, 17, 17⟩] = 0 <;> simp [c]

theorem decode3_spec {mem : Mem} {m : List Nat} (h : Holds mem m) :
    decode3 mem = some (sub3 m, iod3 m) := by
  have g := fun pos len segs a b c d f => get_seg h pos len segs a b c d f
  unfold decode3
  rw [(g 48 16 [⟨3, 1, 16⟩] (by decide) (by decide) (by omega) (by omega) (by omega)).2,
    (g 64 32 [⟨3, 17, 24⟩, ⟨4, 1, 24⟩] (by decide) (by decide) (by omega) (by omega) (by omega)).2,
    (g 96 16 [⟨5, 1, 16⟩] (by decide) (by decide) (by omega) (by omega) (by omega)).2,
    (g 112 32 [⟨5, 17, 24⟩, ⟨6, 1, 24⟩] (by decide) (by decide) (by omega) (by omega) (by omega)).2,
    (g 144 16 [⟨7, 1, 16⟩] (by decide) (by decide) (by omega) (by omega) (by omega)).2,
    (g 160 32 [⟨7, 17, 24⟩, ⟨8, 1, 24⟩] (by decide) (by decide) (by omega) (by omega) (by omega)).2,
    (g 192 24 [⟨9, 1, 24⟩] (by decide) (by decide) (by omega) (by omega) (by omega)).2,
    (g 216 8 [⟨10, 1, 8⟩] (by decide) (by decide) (by omega) (by omega) (by omega)).1,
    (g 224 14 [⟨10, 9, 22⟩] (by decide) (by decide) (by omega) (by omega) (by omega)).2]
  simp only [Option.bind_eq_bind, Option.bind_some, sub3, iod3]

/-- The effect of a correct subframe on the object, before `finish`. -/
def take (n : Nat) (m : List Nat) (e : Eph) : Eph :=
  if n = 1 then { e with s1 := sub1 m, iode := iod1 m, iode1 := iod1 m,
                         collected := e.collected ||| 1 }
  else if n = 2 then { e with s2 := sub2 m, iode := iod2 m, iode2 := iod2 m,
                              collected := e.collected ||| 2 }
  else { e with s3 := sub3 m, iode3 := e.iode, collected := e.collected ||| 4 }

/-- `parse` in terms of the specification of the message. -/
theorem parse_eq (m : List Nat) (hw : Words32 m) (e : Eph) :
    parse m e =
      if 10 ≤ m.length ∧ 1 ≤ U m [⟨2, 20, 22⟩] ∧ U m [⟨2, 20, 22⟩] ≤ 3 then
        finish (if U m [⟨1, 1, 8⟩] = 0x8B then take (U m [⟨2, 20, 22⟩]) m e else e)
      else some (false, e) := by
  unfold parse
  by_cases hl : 10 ≤ m.length
  case neg => rw [if_pos (by omega), if_neg (by omega)]
  rw [if_neg (by omega)]
  obtain ⟨mem, es, hH⟩ := strip_spec m hl hw
  have eid := (get_seg hH 43 3 [⟨2, 20, 22⟩] (by decide) (by decide) (by omega) (by omega)
    (by omega)).1
  obtain ⟨x, hx, hp⟩ := preamble hH
  have hx' : x = 0x8B ↔ U m [⟨1, 1, 8⟩] = 0x8B := by
    rw [← hp]
    constructor
    · rintro rfl; rfl
    · intro h; exact UInt8.toNat_inj.1 h
  simp only [es, eid, Option.bind_eq_bind, Option.bind_some]
  generalize hid : U m [⟨2, 20, 22⟩] = id
  by_cases c1 : id = 1
  · subst c1
    rw [if_pos rfl, if_pos (by omega)]
    unfold frame1
    simp only [hx, Option.bind_eq_bind, Option.bind_some, decode1_spec hH, hx', ne_eq, FRAME1]
    by_cases cp : U m [⟨1, 1, 8⟩] = 0x8B <;> simp [cp, take]
  rw [if_neg c1]
  by_cases c2 : id = 2
  · subst c2
    rw [if_pos rfl, if_pos (by omega)]
    unfold frame2
    simp only [hx, Option.bind_eq_bind, Option.bind_some, decode2_spec hH, hx', ne_eq, FRAME2]
    by_cases cp : U m [⟨1, 1, 8⟩] = 0x8B <;> simp [cp, take]
  rw [if_neg c2]
  by_cases c3 : id = 3
  · subst c3
    rw [if_pos rfl, if_pos (by omega)]
    unfold frame3
    simp only [hx, Option.bind_eq_bind, Option.bind_some, decode3_spec hH, hx', ne_eq, FRAME3]
    by_cases cp : U m [⟨1, 1, 8⟩] = 0x8B <;> simp [cp, take]
  rw [if_neg c3, if_neg (by omega)]

/-! ### Histories -/

theorem U_lt (m : List Nat) (segs : List Seg) : U m segs < 2 ^ (bits m segs).length := by
  have : ∀ l : List Nat, (∀ x ∈ l, x < 2) → number l < 2 ^ l.length := by
    intro l
    induction l using List.reverseRecOn with
    | nil => intro _; simp [number]
    | append_singleton l x ih =>
      intro h
      have h1 := ih (fun y hy => h y (by simp [hy]))
      have h2 := h x (by simp)
      rw [number_append, List.length_append, List.length_singleton, Nat.pow_succ]
      omega
  refine this _ ?_
  intro x hx
  simp only [bits, List.mem_flatMap, List.mem_map] at hx
  obtain ⟨s, -, j, -, rfl⟩ := hx
  exact Nat.mod_lt _ (by omega)

theorem week_lt (m : List Nat) : (sub1 m).week < 3072 := by
  have := U_lt m [⟨3, 1, 10⟩]
  simp only [bits, List.flatMap_cons, List.flatMap_nil, List.append_nil, List.length_map,
    List.length_range'] at this
  show U m _ + 2048 < 3072
  omega

theorem tocs_lt (m : List Nat) : (sub1 m).tocs < 2 ^ 20 := by
  have := U_lt m [⟨8, 9, 24⟩]
  simp only [bits, List.flatMap_cons, List.flatMap_nil, List.append_nil, List.length_map,
    List.length_range'] at this
  show 16 * U m _ < 2 ^ 20
  omega

theorem toes_lt (m : List Nat) : (sub2 m).toes < 2 ^ 20 := by
  have := U_lt m [⟨10, 1, 16⟩]
  simp only [bits, List.flatMap_cons, List.flatMap_nil, List.append_nil, List.length_map,
    List.length_range'] at this
  show 16 * U m _ < 2 ^ 20
  omega

theorem iodc_low (m : List Nat) : (sub1 m).iodc &&& 0xFF = iod1 m := by
  have := U_lt m [⟨8, 1, 8⟩]
  simp only [bits, List.flatMap_cons, List.flatMap_nil, List.append_nil, List.length_map,
    List.length_range'] at this
  have hc : U m [⟨3, 23, 24⟩, ⟨8, 1, 8⟩] = U m [⟨3, 23, 24⟩] * 2 ^ 8 + U m [⟨8, 1, 8⟩] := by
    simp only [U, bits, List.flatMap_cons, List.flatMap_nil, List.append_nil, List.range',
      List.map_cons, List.map_nil, List.cons_append, List.nil_append, number, List.foldl_cons,
      List.foldl_nil]
    omega
  show U m [⟨3, 23, 24⟩, ⟨8, 1, 8⟩] &&& 2 ^ 8 - 1 = U m _
  rw [Nat.and_two_pow_sub_one_eq_mod, hc]
  omega

theorem fromGPS_eq (week sow : Nat) (hw : week < 3072) (hs : sow < 2 ^ 20) :
    Utc.fromGPS week ((sow : Int) * 1000) = some ⟨gpsSecond week sow, 0⟩ := by
  have hi : ∀ x : Int, -2 ^ 63 ≤ x → x < 2 ^ 63 → Utc.i64 x = some x := fun x a b => if_pos ⟨a, b⟩
  have hj : ∀ x : Int, -2 ^ 31 ≤ x → x < 2 ^ 31 → Utc.i32 x = some x := fun x a b => if_pos ⟨a, b⟩
  unfold Utc.fromGPS
  have e : ((sow : Int) * 1000).tdiv 1000 = sow := Int.mul_tdiv_cancel _ (by omega)
  have e' : ((sow : Int) * 1000).tmod 1000 = 0 := Int.mul_tmod_left _ _
  simp only [Utc.SEC_IN_WEEK, Utc.GPS_UTC_OFFSET, Utc.E9, e, e', Option.bind_eq_bind]
  rw [hj _ (by omega) (by omega), Option.bind_some,
    hj _ (by omega) (by omega), Option.bind_some,
    hi _ (by omega) (by omega), Option.bind_some]
  simp only [Utc.wrapNsec, gpsSecond, Utc.E9]
  simp
  omega

/-- The object after a report. -/
def reported (e : Eph) : Eph :=
  { e with toe := ⟨gpsSecond e.s1.week e.s2.toes, 0⟩, toc := ⟨gpsSecond e.s1.week e.s1.tocs, 0⟩,
           iode1 := 0, iode2 := 0, iode3 := 0 }

/-- The test made by `finish`. -/
def Ready (e : Eph) : Prop :=
  e.collected = 7 ∧ e.iode1 = e.iode2 ∧ e.iode1 = e.iode3 ∧ e.iode = e.s1.iodc &&& 0xFF

theorem finish_ready {e : Eph} (h : Ready e) (h1 : e.s1.week < 3072) (h2 : e.s2.toes < 2 ^ 20)
    (h3 : e.s1.tocs < 2 ^ 20) : finish e = some (true, reported e) := by
  obtain ⟨a, b, c, d⟩ := h
  unfold finish
  rw [if_neg (by rw [a]; decide), if_neg (by rw [← b, ← c, ← d]; simp)]
  simp only [fromGPS_eq _ _ h1 h2, fromGPS_eq _ _ h1 h3, Option.bind_eq_bind, Option.bind_some]
  rfl

theorem finish_not {e : Eph} (h : ¬ Ready e) : finish e = some (false, e) := by
  unfold finish
  by_cases a : e.collected = 7
  · rw [if_neg (by rw [a]; decide), if_pos]
    by_contra c
    simp only [not_or, ne_eq, Decidable.not_not] at c
    exact h ⟨a, c.1, c.2.1, c.2.2⟩
  · rw [if_pos (by simpa [FRAME1, FRAME2, FRAME3] using a)]

/-- 1 if something was received. -/
def ind {α : Type} (o : Option α) : Nat := if o.isSome then 1 else 0

/-- What is true of the object after the history `h`, of which `cur` is the part received since the
last report. -/
structure Inv (h cur : List (List Nat)) (e : Eph) : Prop where
  coll : e.collected = ind (lastSub 1 h) + 2 * ind (lastSub 2 h) + 4 * ind (lastSub 3 h)
  s1 : ∀ f, lastSub 1 h = some f → e.s1 = sub1 f
  s2 : ∀ f, lastSub 2 h = some f → e.s2 = sub2 f
  s3 : ∀ f, lastSub 3 h = some f → e.s3 = sub3 f
  i1 : e.iode1 = ((lastSub 1 cur).map iod1).getD 0
  i2 : e.iode2 = ((lastSub 2 cur).map iod2).getD 0
  i3 : lastSub 3 cur = none → e.iode3 = 0

theorem lastSub_append (n : Nat) (h : List (List Nat)) (m : List Nat) :
    lastSub n (h ++ [m]) = if IsSub n m then some m else lastSub n h := by
  unfold lastSub
  rw [List.reverse_append, List.reverse_singleton, List.singleton_append, List.find?_cons]
  by_cases c : IsSub n m <;> simp [c]

/-- The object before `finish`. -/
def taken (m : List Nat) (e : Eph) : Eph :=
  if IsSub 1 m then take 1 m e else if IsSub 2 m then take 2 m e
  else if IsSub 3 m then take 3 m e else e

theorem isSub_unique {a b : Nat} {m : List Nat} (h : IsSub a m) (h' : IsSub b m) : a = b :=
  h.2.2.symm.trans h'.2.2

theorem coll_or : ∀ a, a < 2 → ∀ b, b < 2 → ∀ c, c < 2 →
    (a + 2 * b + 4 * c) ||| 1 = 1 + 2 * b + 4 * c ∧
    (a + 2 * b + 4 * c) ||| 2 = a + 2 * 1 + 4 * c ∧
    (a + 2 * b + 4 * c) ||| 4 = a + 2 * b + 4 * 1 := by decide

theorem ind_lt {α : Type} (o : Option α) : ind o < 2 := by unfold ind; split <;> omega

theorem inv_taken {h cur : List (List Nat)} {e : Eph} (hi : Inv h cur e) (m : List Nat) :
    Inv (h ++ [m]) (cur ++ [m]) (taken m e) := by
  have co := coll_or _ (ind_lt (lastSub 1 h)) _ (ind_lt (lastSub 2 h)) _ (ind_lt (lastSub 3 h))
  unfold taken
  by_cases c1 : IsSub 1 m
  · have c2 : ¬ IsSub 2 m := fun x => by have := isSub_unique c1 x; omega
    have c3 : ¬ IsSub 3 m := fun x => by have := isSub_unique c1 x; omega
    rw [if_pos c1]
    constructor <;> simp only [lastSub_append, if_pos c1, if_neg c2, if_neg c3, take, if_true]
    · rw [hi.coll, co.1]; rfl
    · rintro f ⟨rfl⟩; rfl
    · exact hi.s2
    · exact hi.s3
    · rfl
    · exact hi.i2
    · exact hi.i3
  rw [if_neg c1]
  by_cases c2 : IsSub 2 m
  · have c3 : ¬ IsSub 3 m := fun x => by have := isSub_unique c2 x; omega
    rw [if_pos c2]
    constructor <;> simp only [lastSub_append, if_pos c2, if_neg c1, if_neg c3, take, if_true,
      show ¬ (2 = 1) by omega, if_false]
    · rw [hi.coll, co.2.1]; rfl
    · exact hi.s1
    · rintro f ⟨rfl⟩; rfl
    · exact hi.s3
    · exact hi.i1
    · rfl
    · exact hi.i3
  rw [if_neg c2]
  by_cases c3 : IsSub 3 m
  · rw [if_pos c3]
    constructor <;> simp only [lastSub_append, if_pos c3, if_neg c1, if_neg c2, take,
      show ¬ (3 = 1) by omega, show ¬ (3 = 2) by omega, if_false]
    · rw [hi.coll, co.2.2]; rfl
    · exact hi.s1
    · exact hi.s2
    · rintro f ⟨rfl⟩; rfl
    · exact hi.i1
    · exact hi.i2
    · intro h; exact absurd h (by simp)
  rw [if_neg c3]
  constructor <;> simp only [lastSub_append, if_neg c1, if_neg c2, if_neg c3]
  exacts [hi.coll, hi.s1, hi.s2, hi.s3, hi.i1, hi.i2, hi.i3]

/-- A message that reaches the final test: long enough and with subframe number 1, 2 or 3. -/
def Relevant (m : List Nat) : Prop :=
  10 ≤ m.length ∧ 1 ≤ U m [⟨2, 20, 22⟩] ∧ U m [⟨2, 20, 22⟩] ≤ 3

theorem parse_taken (m : List Nat) (hw : Words32 m) (e : Eph) :
    (Relevant m → parse m e = finish (taken m e)) ∧
    (¬ Relevant m → parse m e = some (false, e) ∧ taken m e = e) := by
  rw [parse_eq m hw e]
  constructor
  · intro h
    unfold Relevant at h
    rw [if_pos h]
    obtain ⟨hl, h1, h3⟩ := h
    unfold taken
    by_cases cp : U m [⟨1, 1, 8⟩] = 0x8B
    · have : U m [⟨2, 20, 22⟩] = 1 ∨ U m [⟨2, 20, 22⟩] = 2 ∨ U m [⟨2, 20, 22⟩] = 3 := by omega
      rcases this with x | x | x <;> simp [cp, hl, x, IsSub]
    · simp [cp, IsSub]
  · intro h
    unfold Relevant at h
    rw [if_neg h]
    refine ⟨rfl, ?_⟩
    have : ∀ n, 1 ≤ n → n ≤ 3 → ¬ IsSub n m := by
      intro n a b c
      exact h ⟨c.1, by rw [c.2.2]; exact a, by rw [c.2.2]; exact b⟩
    unfold taken
    rw [if_neg (this 1 (by omega) (by omega)), if_neg (this 2 (by omega) (by omega)),
      if_neg (this 3 (by omega) (by omega))]

theorem inv_all {h cur : List (List Nat)} {e : Eph} (hi : Inv h cur e) (hc : e.collected = 7) :
    ∃ f1 f2 f3, lastSub 1 h = some f1 ∧ lastSub 2 h = some f2 ∧ lastSub 3 h = some f3 := by
  rw [hi.coll] at hc
  have a := ind_lt (lastSub 1 h)
  have b := ind_lt (lastSub 2 h)
  have c := ind_lt (lastSub 3 h)
  have a' : ind (lastSub 1 h) = 1 := by omega
  have b' : ind (lastSub 2 h) = 1 := by omega
  have c' : ind (lastSub 3 h) = 1 := by omega
  have k : ∀ o : Option (List Nat), ind o = 1 → ∃ f, o = some f := by
    intro o ho
    cases o with
    | none => exact absurd ho (by decide)
    | some f => exact ⟨f, rfl⟩
  obtain ⟨f1, e1⟩ := k _ a'
  obtain ⟨f2, e2⟩ := k _ b'
  obtain ⟨f3, e3⟩ := k _ c'
  exact ⟨f1, f2, f3, e1, e2, e3⟩

theorem inv_reported {h cur : List (List Nat)} {e : Eph} (hi : Inv h cur e) :
    Inv h [] (reported e) :=
  ⟨hi.coll, hi.s1, hi.s2, hi.s3, rfl, rfl, fun _ => rfl⟩

/-- One message: never undefined behaviour, and the invariant continues. -/
theorem step {h cur : List (List Nat)} {e : Eph} (hi : Inv h cur e) (m : List Nat)
    (hw : Words32 m) :
    (parse m e = some (true, reported (taken m e)) ∧ Relevant m ∧ Ready (taken m e) ∧
      Inv (h ++ [m]) [] (reported (taken m e))) ∨
    (parse m e = some (false, taken m e) ∧ ¬ (Relevant m ∧ Ready (taken m e)) ∧
      Inv (h ++ [m]) (cur ++ [m]) (taken m e)) := by
  have ht := inv_taken hi m
  have hp := parse_taken m hw e
  by_cases r : Relevant m
  · rw [hp.1 r]
    by_cases c : Ready (taken m e)
    · left
      obtain ⟨f1, f2, f3, e1, e2, e3⟩ := inv_all ht c.1
      refine ⟨finish_ready c ?_ ?_ ?_, r, c, inv_reported ht⟩
      · rw [ht.s1 _ e1]; exact week_lt _
      · rw [ht.s2 _ e2]; exact toes_lt _
      · rw [ht.s1 _ e1]; exact tocs_lt _
    · right; exact ⟨finish_not c, fun x => c x.2, ht⟩
  · right
    have := hp.2 r
    exact ⟨by rw [this.1, this.2], fun x => r x.1, ht⟩

theorem inv_fresh {e : Eph} (h : Fresh e) : Inv [] [] e := by
  obtain ⟨a, b, c, d⟩ := h
  exact ⟨d, by simp [lastSub], by simp [lastSub], by simp [lastSub], a, b, fun _ => c⟩

instance (m : List Nat) : Decidable (Relevant m) := by unfold Relevant; infer_instance
instance (e : Eph) : Decidable (Ready e) := by unfold Ready; infer_instance

/-- The result of `parse` in a reachable state. -/
def sim (m : List Nat) (e : Eph) : Bool × Eph :=
  if Relevant m ∧ Ready (taken m e) then (true, reported (taken m e)) else (false, taken m e)

/-- Message by message with the log of the observer. -/
def simAll (ms : List (List Nat)) (e : Eph) : Eph × List (List Nat) :=
  ms.foldl (fun s m => let r := sim m s.1; (r.2, if r.1 then [] else s.2 ++ [m])) (e, [])

theorem parse_sim {h cur : List (List Nat)} {e : Eph} (hi : Inv h cur e) (m : List Nat)
    (hw : Words32 m) : parse m e = some (sim m e) ∧
      Inv (h ++ [m]) (if (sim m e).1 then [] else cur ++ [m]) (sim m e).2 := by
  unfold sim
  rcases step hi m hw with ⟨a, b, c, d⟩ | ⟨a, b, c⟩
  · rw [if_pos ⟨b, c⟩]; exact ⟨a, d⟩
  · rw [if_neg b]; exact ⟨a, c⟩

theorem observe_sim {e0 : Eph} (h0 : Fresh e0) (ms : List (List Nat)) :
    (∀ m ∈ ms, Words32 m) → observe e0 ms = some (simAll ms e0) ∧
      Inv ms (simAll ms e0).2 (simAll ms e0).1 := by
  induction ms using List.reverseRecOn with
  | nil => intro _; exact ⟨rfl, inv_fresh h0⟩
  | append_singleton ms m ih =>
    intro hw
    obtain ⟨a, b⟩ := ih (fun x hx => hw x (by simp [hx]))
    have c := parse_sim b m (hw m (by simp))
    unfold observe at *
    unfold simAll at *
    rw [List.foldl_append, List.foldlM_append, a]
    simp only [Option.bind_eq_bind, Option.bind_some, List.foldlM_cons, List.foldlM_nil, c.1,
      List.foldl_cons, List.foldl_nil, Option.pure_def]
    exact ⟨trivial, c.2⟩

end Verif.Gps
