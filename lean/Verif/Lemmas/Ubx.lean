import Verif.Model.Ubx
import Verif.Spec.Ubx
/-! Lemmas about the UBX state machine. -/
namespace Verif.Ubx
open Verif.UbxSpec

/-! ### Checksum -/

theorem sumA_cons (b : UInt8) (l : List UInt8) : sumA (b :: l) = b + sumA l := by
  unfold sumA
  simp [UInt8.ofNat_add]

theorem sumB_cons (b : UInt8) (l : List UInt8) :
    sumB (b :: l) = UInt8.ofNat (l.length + 1) * b + sumB l := by
  show UInt8.ofNat _ = _
  rw [UInt8.ofNat_add, UInt8.ofNat_mul, UInt8.ofNat_toNat, UInt8.ofNat_toNat]

theorem foldl_ck (l : List UInt8) (a b : UInt8) :
    l.foldl ckAdd (a, b) = (a + sumA l, b + UInt8.ofNat l.length * a + sumB l) := by
  induction l generalizing a b with
  | nil => simp [sumA, sumB]
  | cons x l ih =>
    rw [List.foldl_cons]
    show l.foldl ckAdd (a + x, b + (a + x)) = _
    rw [ih, sumA_cons, sumB_cons, List.length_cons, UInt8.ofNat_add]
    have h1 : UInt8.ofNat 1 = 1 := rfl
    rw [h1]
    generalize UInt8.ofNat l.length = n
    generalize sumA l = s
    generalize sumB l = t
    rw [Prod.mk.injEq]
    constructor <;> grind

theorem ckLoop_eq (buf : Nat → UInt8) (n i : Nat) (c : UInt8 × UInt8) :
    ckLoop buf n i c = ((List.range' i n).map buf).foldl ckAdd c := by
  induction n generalizing i c with
  | zero => rfl
  | succ n ih => rw [ckLoop, ih, List.range'_succ]; rfl

theorem lenLo (n : Nat) : UInt8.ofNat (n &&& 0xFF) = UInt8.ofNat (n % 256) := by
  rw [show (0xFF : Nat) = 2 ^ 8 - 1 from rfl, Nat.and_two_pow_sub_one_eq_mod]

theorem lenHi (n : Nat) (h : n < 65536) : UInt8.ofNat ((n >>> 8) &&& 0xFF) = UInt8.ofNat (n / 256) := by
  rw [show (0xFF : Nat) = 2 ^ 8 - 1 from rfl, Nat.and_two_pow_sub_one_eq_mod, Nat.shiftRight_eq_div_pow,
    Nat.mod_eq_of_lt (by omega)]

theorem checksum_eq (cls typ : UInt8) (n : Nat) (buf : Nat → UInt8) (h : n < 65536) :
    calculateChecksum cls typ n buf
      = (sumA (body cls typ ((List.range n).map buf)), sumB (body cls typ ((List.range n).map buf))) := by
  have e : calculateChecksum cls typ n buf
      = (body cls typ ((List.range n).map buf)).foldl ckAdd (0, 0) := by
    unfold calculateChecksum body
    simp only [ckLoop_eq, lenLo, lenHi n h, List.length_map, List.length_range',
      List.range_eq_range', List.foldl_append, List.foldl_cons, List.foldl_nil]
  rw [e, foldl_ck]
  simp

/-! ### Running -/

theorem run_cons (s : St) (b : UInt8) (bs : List UInt8) (s' s'' : St) (e e' : List Event)
    (h : step s b = some (s', e)) (h' : run s' bs = some (s'', e')) :
    run s (b :: bs) = some (s'', e ++ e') := by
  simp [run, h, h']

theorem run_append (s : St) (l₁ l₂ : List UInt8) (s₁ s₂ : St) (e₁ e₂ : List Event)
    (h₁ : run s l₁ = some (s₁, e₁)) (h₂ : run s₁ l₂ = some (s₂, e₂)) :
    run s (l₁ ++ l₂) = some (s₂, e₁ ++ e₂) := by
  induction l₁ generalizing s e₁ with
  | nil => simp [run] at h₁; obtain ⟨rfl, rfl⟩ := h₁; simpa using h₂
  | cons b l ih =>
    rw [run] at h₁
    cases hs : step s b with
    | none => rw [hs] at h₁; cases h₁
    | some p =>
      obtain ⟨s', e⟩ := p
      rw [hs] at h₁
      simp only at h₁
      cases hr : run s' l with
      | none => rw [hr] at h₁; cases h₁
      | some q =>
        obtain ⟨t, e'⟩ := q
        rw [hr] at h₁
        simp only [Option.some.injEq, Prod.mk.injEq] at h₁
        obtain ⟨rfl, rfl⟩ := h₁
        have := ih s' e' hr
        rw [List.cons_append, run_cons s b _ s' s₂ e _ hs this, List.append_assoc]

/-- Filler without a sync pair leaves the parser waiting. -/
theorem run_filler (s : St) (l : List UInt8) (hs : s.st = .START) (h : NoSync s.prev l) :
    run s l = some ({ s with prev := (s.prev :: l).getLast (by simp) }, []) := by
  induction l generalizing s with
  | nil => simp [run]
  | cons b l ih =>
    obtain ⟨h1, h2⟩ := h
    have hst : step s b = some ({ s with prev := b }, []) := by
      unfold step dispatchByte
      rw [hs]
      simp only
      rw [if_neg (by rintro ⟨h3, h4⟩; exact h1 ⟨h4, h3⟩)]
      simp [hs]
    rw [run_cons s b l _ _ _ _ hst (ih _ hs h2)]
    simp [List.getLast_cons]

/-- State after the six header bytes. -/
theorem run_header (s : St) (hs : s.st = .START) (c t : UInt8) (n : Nat) (hn : n ≤ 2048) :
    ∃ s', run s [0xB5, 0x62, c, t, UInt8.ofNat (n % 256), UInt8.ofNat (n / 256)] = some (s', []) ∧
      s'.st = .GOT_LENGTH2 ∧ s'.head = 0 ∧ s'.cls = c ∧ s'.typ = t ∧ s'.len = n := by
  have hl : (UInt8.ofNat (n % 256)).toNat ||| ((UInt8.ofNat (n / 256)).toNat <<< 8) = n := by
    rw [UInt8.toNat_ofNat', UInt8.toNat_ofNat', Nat.or_comm, Nat.shiftLeft_eq, Nat.mul_comm,
      ← Nat.two_pow_add_eq_or_of_lt (Nat.mod_lt _ (by decide))]
    omega
  have h1 : step s 0xB5 = some ({ s with prev := 0xB5 }, []) := by
    unfold step dispatchByte; rw [hs]; simp [START_BYTE_2, hs]
  let s2 : St := { s with prev := 0x62, head := 0, st := .GOT_START_FRAME, cls := 0, typ := 0,
                          len := 0, ckA := 0, ckB := 0 }
  have h2 : step { s with prev := 0xB5 } 0x62 = some (s2, []) := by
    unfold step dispatchByte; simp only [hs]
    rw [if_pos ⟨rfl, rfl⟩]
    simp [s2]
  let s3 : St := { s2 with prev := c, cls := c, st := .GOT_CLASS }
  have h3 : step s2 c = some (s3, []) := by simp [step, dispatchByte, s2, s3]
  let s4 : St := { s3 with prev := t, typ := t, st := .GOT_MSG_ID }
  have h4 : step s3 t = some (s4, []) := by simp [step, dispatchByte, s3, s4]
  let lo := UInt8.ofNat (n % 256)
  let hi := UInt8.ofNat (n / 256)
  let s5 : St := { s4 with prev := lo, len := lo.toNat, st := .GOT_LENGTH1 }
  have h5 : step s4 lo = some (s5, []) := by simp [step, dispatchByte, s4, s5]
  let s6 : St := { s5 with prev := hi, len := n, st := .GOT_LENGTH2 }
  have h6 : step s5 hi = some (s6, []) := by
    have : s5.len ||| (hi.toNat <<< 8) = n := hl
    unfold step dispatchByte
    rw [show s5.st = .GOT_LENGTH1 from rfl]
    simp only [this]
    rw [if_neg (by unfold BUFFER_SIZE; omega)]
    simp [s6]
  refine ⟨s6, ?_, rfl, rfl, rfl, rfl, rfl⟩
  exact run_cons _ _ _ _ _ _ _ h1 (run_cons _ _ _ _ _ _ _ h2 (run_cons _ _ _ _ _ _ _ h3
    (run_cons _ _ _ _ _ _ _ h4 (run_cons _ _ _ _ _ _ _ h5 (run_cons _ _ _ _ _ _ _ h6 rfl)))))

/-- Receiving the remaining payload bytes. -/
theorem run_payload (pl : List UInt8) (s : St) (hs : s.st = .GOT_LENGTH2) (hne : pl ≠ [])
    (hlen : s.head + pl.length = s.len) (hmax : s.len ≤ 2048) :
    ∃ s', run s pl = some (s', []) ∧ s'.st = .GOT_PAYLOAD ∧ s'.cls = s.cls ∧ s'.typ = s.typ ∧
      s'.len = s.len ∧ (∀ i, i < s.head → s'.buf i = s.buf i) ∧
      (List.range' s.head pl.length).map s'.buf = pl := by
  induction pl generalizing s with
  | nil => exact absurd rfl hne
  | cons b pl ih =>
    rw [List.length_cons] at hlen
    let s1 : St := { s with prev := b, buf := fun i => if i = s.head then b else s.buf i,
                            st := if s.head = s.len - 1 then .GOT_PAYLOAD else .GOT_LENGTH2,
                            head := s.head + 1 }
    have h1 : step s b = some (s1, []) := by
      unfold step dispatchByte
      rw [hs]
      simp only
      rw [if_pos (by omega), if_pos (by unfold BUFFER_SIZE; omega)]
      simp only
      rw [if_neg (by split <;> simp)]
    cases pl with
    | nil =>
      refine ⟨s1, run_cons _ _ _ _ _ _ _ h1 rfl, ?_, rfl, rfl, rfl, ?_, ?_⟩
      · show (if s.head = s.len - 1 then PState.GOT_PAYLOAD else .GOT_LENGTH2) = _
        rw [if_pos (by simp at hlen; omega)]
      · intro i hi; simp [s1]; omega
      · simp [s1]
    | cons b2 pl2 =>
      have hst : s1.st = .GOT_LENGTH2 := by
        show (if s.head = s.len - 1 then PState.GOT_PAYLOAD else .GOT_LENGTH2) = _
        rw [if_neg (by simp at hlen; omega)]
      obtain ⟨s', hr, g1, g2, g3, g4, g5, g6⟩ := ih s1 hst (by simp)
        (by show s.head + 1 + _ = s.len; omega) hmax
      refine ⟨s', run_cons _ _ _ _ _ _ _ h1 hr, g1, g2, g3, g4, ?_, ?_⟩
      · intro i hi
        rw [g5 i (by show i < s.head + 1; omega)]
        simp [s1]; omega
      · rw [List.length_cons, List.range'_succ, List.map_cons]
        have e0 : s'.buf s.head = b := by
          rw [g5 s.head (by show s.head < s.head + 1; omega)]; simp [s1]
        rw [e0]
        exact congrArg (b :: ·) g6

/-- Receiving a complete frame. -/
theorem run_frame (s : St) (hs : s.st = .START) (c t : UInt8) (pl : List UInt8)
    (h1 : 1 ≤ pl.length) (h2 : pl.length ≤ 2048) :
    ∃ s', run s (frame c t pl) = some (s', [⟨c, t, pl⟩]) ∧ s'.st = .START ∧
      s'.prev = sumB (body c t pl) := by
  obtain ⟨s1, r1, a1, a2, a3, a4, a5⟩ := run_header s hs c t pl.length h2
  obtain ⟨s2, r2, b1, b2, b3, b4, _, b6⟩ := run_payload pl s1 a1 (by rintro rfl; simp at h1)
    (by omega) (by omega)
  have hp : payloadOf s2 = pl := by
    unfold payloadOf
    rw [b4, a5, List.range_eq_range', ← a2]
    exact b6
  let s3 : St := { s2 with prev := sumA (body c t pl), ckA := sumA (body c t pl), st := .GOT_CK_A }
  have h3 : step s2 (sumA (body c t pl)) = some (s3, []) := by
    unfold step dispatchByte; rw [b1]; simp [s3]
  let s4 : St := { s3 with ckB := sumB (body c t pl), st := .GOT_CK_B }
  have hd : decodeMessage s4 = some ⟨c, t, pl⟩ := by
    unfold decodeMessage
    have hp4 : payloadOf s4 = pl := hp
    have hp' : (List.range s4.len).map s4.buf = pl := hp
    have hl : s4.len = pl.length := by show s2.len = _; rw [b4, a5]
    have hc : s4.cls = c := by show s2.cls = c; rw [b2, a3]
    have ht : s4.typ = t := by show s2.typ = t; rw [b3, a4]
    rw [checksum_eq _ _ _ _ (by omega), hp', hp4, hc, ht]
    simp [s4, s3]
  let s5 : St := { s4 with prev := sumB (body c t pl), st := .START }
  have h4 : step s3 (sumB (body c t pl)) = some (s5, [⟨c, t, pl⟩]) := by
    unfold step
    have : dispatchByte s3 (sumB (body c t pl)) = some s4 := rfl
    rw [this]
    simp only
    rw [if_pos rfl, hd]
  refine ⟨s5, ?_, rfl, rfl⟩
  have : frame c t pl = [0xB5, 0x62, c, t, UInt8.ofNat (pl.length % 256), UInt8.ofNat (pl.length / 256)]
      ++ (pl ++ [sumA (body c t pl), sumB (body c t pl)]) := by
    unfold frame body; simp
  rw [this]
  have e := run_append _ _ _ _ _ _ _ r2 (run_cons s2 _ _ s3 s5 _ _ h3 (run_cons s3 _ [] s5 s5 _ [] h4 rfl))
  exact run_append _ _ _ _ _ _ _ r1 e

/-! ### Invariant -/

/-- The six header bytes for the values in the state. -/
def hdr (s : St) : List UInt8 :=
  [0xB5, 0x62, s.cls, s.typ, UInt8.ofNat (s.len % 256), UInt8.ofNat (s.len / 256)]

/-- What each state says about the bytes received so far. -/
def Inv (hist : List UInt8) (s : St) : Prop :=
  s.prev = hist.getLastD 0 ∧
  match s.st with
  | .START => True
  | .GOT_START_FRAME => [0xB5, 0x62] <:+ hist ∧ s.head = 0
  | .GOT_CLASS => [0xB5, 0x62, s.cls] <:+ hist ∧ s.head = 0
  | .GOT_MSG_ID => [0xB5, 0x62, s.cls, s.typ] <:+ hist ∧ s.head = 0
  | .GOT_LENGTH1 => [0xB5, 0x62, s.cls, s.typ, UInt8.ofNat s.len] <:+ hist ∧ s.head = 0 ∧ s.len < 256
  | .GOT_LENGTH2 => s.len ≤ 2048 ∧
      ((s.head < s.len ∧ hdr s ++ (List.range s.head).map s.buf <:+ hist) ∨ s.len = 0)
  | .GOT_PAYLOAD => hdr s ++ (List.range s.len).map s.buf <:+ hist ∧ s.len ≤ 2048 ∧ 0 < s.len
  | .GOT_CK_A => hdr s ++ (List.range s.len).map s.buf ++ [s.ckA] <:+ hist ∧ s.len ≤ 2048 ∧ 0 < s.len
  | .GOT_CK_B => False

theorem suffix_snoc {l h : List UInt8} (b : UInt8) (hh : l <:+ h) : l ++ [b] <:+ h ++ [b] := by
  obtain ⟨p, rfl⟩ := hh
  exact ⟨p, by simp⟩

theorem suffix_snoc' {l h m : List UInt8} (b : UInt8) (hh : l <:+ h) (hm : m = l ++ [b]) :
    m <:+ h ++ [b] := hm ▸ suffix_snoc b hh

theorem u8_ofNat (b : UInt8) : UInt8.ofNat b.toNat = b := UInt8.ofNat_toNat

/-- One byte: no out-of-bounds write, the invariant is kept, and a dispatched message is exactly
the frame that ends with this byte. -/
theorem step_inv (hist : List UInt8) (s : St) (b : UInt8) (hi : Inv hist s) :
    ∃ s' es, step s b = some (s', es) ∧ Inv (hist ++ [b]) s' ∧
      (es = [] ∨ ∃ e, es = [e] ∧ frame e.cls e.typ e.payload <:+ hist ++ [b] ∧
        1 ≤ e.payload.length ∧ e.payload.length ≤ 2048) := by
  obtain ⟨hp, hi⟩ := hi
  have hlast : ∀ l : List UInt8, (l ++ [b]).getLastD 0 = b := by simp
  cases hst : s.st with
  | START =>
    by_cases h : b = START_BYTE_2 ∧ s.prev = START_BYTE_1
    · refine ⟨{ s with prev := b, head := 0, st := .GOT_START_FRAME, cls := 0, typ := 0, len := 0,
                       ckA := 0, ckB := 0 }, [], ?_, ⟨(hlast _).symm, ?_, rfl⟩, Or.inl rfl⟩
      · unfold step dispatchByte; rw [hst]; simp only; rw [if_pos h]; simp
      · obtain ⟨h1, h2⟩ := h
        rw [hp] at h2
        rcases List.eq_nil_or_concat hist with rfl | ⟨l, x, rfl⟩
        · simp [START_BYTE_1] at h2
        · simp at h2; subst h2; subst h1
          exact ⟨l, by simp [START_BYTE_1, START_BYTE_2]⟩
    · refine ⟨{ s with prev := b }, [], ?_, ⟨(hlast _).symm, ?_⟩, Or.inl rfl⟩
      · unfold step dispatchByte; rw [hst]; simp only; rw [if_neg h]; simp [hst]
      · simp [hst]
  | GOT_START_FRAME =>
    rw [hst] at hi
    obtain ⟨hi, h0⟩ := hi
    refine ⟨{ s with prev := b, cls := b, st := .GOT_CLASS }, [], ?_, ⟨(hlast _).symm, ?_, h0⟩, Or.inl rfl⟩
    · unfold step dispatchByte; rw [hst]; simp
    · exact suffix_snoc' b hi rfl
  | GOT_CLASS =>
    rw [hst] at hi
    obtain ⟨hi, h0⟩ := hi
    refine ⟨{ s with prev := b, typ := b, st := .GOT_MSG_ID }, [], ?_, ⟨(hlast _).symm, ?_, h0⟩, Or.inl rfl⟩
    · unfold step dispatchByte; rw [hst]; simp
    · exact suffix_snoc' b hi rfl
  | GOT_MSG_ID =>
    rw [hst] at hi
    obtain ⟨hi, h0⟩ := hi
    refine ⟨{ s with prev := b, len := b.toNat, st := .GOT_LENGTH1 }, [], ?_,
      ⟨(hlast _).symm, ?_, h0, b.toNat_lt⟩, Or.inl rfl⟩
    · unfold step dispatchByte; rw [hst]; simp
    · exact suffix_snoc' b hi (by simp)
  | GOT_LENGTH1 =>
    rw [hst] at hi
    obtain ⟨hi, h0, hl⟩ := hi
    have hv : s.len ||| (b.toNat <<< 8) = b.toNat * 256 + s.len := by
      rw [Nat.or_comm, Nat.shiftLeft_eq, Nat.mul_comm, ← Nat.two_pow_add_eq_or_of_lt hl]
    by_cases h : s.len ||| (b.toNat <<< 8) > BUFFER_SIZE
    · refine ⟨{ s with len := s.len ||| (b.toNat <<< 8), prev := b, st := .START }, [], ?_,
        ⟨(hlast _).symm, trivial⟩, Or.inl rfl⟩
      unfold step dispatchByte; rw [hst]; simp only; rw [if_pos h]; simp
    · refine ⟨{ s with len := s.len ||| (b.toNat <<< 8), prev := b, st := .GOT_LENGTH2 }, [], ?_,
        ⟨(hlast _).symm, by unfold BUFFER_SIZE at h; simp only; omega, ?_⟩, Or.inl rfl⟩
      · unfold step dispatchByte; rw [hst]; simp only; rw [if_neg h]; simp
      · by_cases hz : s.len ||| (b.toNat <<< 8) = 0
        · exact Or.inr hz
        refine Or.inl ⟨by simp only; omega, ?_⟩
        simp only [h0, List.range_zero, List.map_nil, List.append_nil, hdr]
        refine suffix_snoc' b hi ?_
        have e1 : (b.toNat * 256 + s.len) % 256 = s.len := by omega
        have e2 : (b.toNat * 256 + s.len) / 256 = b.toNat := by omega
        rw [hv, e1, e2, u8_ofNat]; rfl
  | GOT_LENGTH2 =>
    rw [hst] at hi
    obtain ⟨hl, hh⟩ := hi
    by_cases h : s.head < s.len
    · have hi : hdr s ++ (List.range s.head).map s.buf <:+ hist := by
        rcases hh with hh | hh
        · exact hh.2
        · omega
      let s1 : St := { s with prev := b, buf := fun i => if i = s.head then b else s.buf i,
                              st := if s.head = s.len - 1 then .GOT_PAYLOAD else .GOT_LENGTH2,
                              head := s.head + 1 }
      have hstep : step s b = some (s1, []) := by
        unfold step dispatchByte
        rw [hst]
        simp only
        rw [if_pos h, if_pos (by unfold BUFFER_SIZE; omega)]
        simp only
        rw [if_neg (by split <;> simp)]
      have hb : (List.range (s.head + 1)).map s1.buf = (List.range s.head).map s.buf ++ [b] := by
        rw [List.range_succ, List.map_append]
        have e1 : List.map s1.buf [s.head] = [b] := by simp [s1]
        rw [e1]
        refine congrArg (· ++ [b]) ?_
        refine List.map_congr_left fun i hi => ?_
        rw [List.mem_range] at hi
        simp [s1]; omega
      have hsuf : hdr s1 ++ (List.range (s.head + 1)).map s1.buf <:+ hist ++ [b] := by
        rw [hb, ← List.append_assoc]
        exact suffix_snoc b hi
      refine ⟨s1, [], hstep, ⟨(hlast _).symm, ?_⟩, Or.inl rfl⟩
      by_cases he : s.head = s.len - 1
      · have : s1.st = .GOT_PAYLOAD := by simp [s1, he]
        rw [this]
        refine ⟨?_, hl, by show 0 < s.len; omega⟩
        have e : s1.len = s.head + 1 := by show s.len = _; omega
        rw [e]; exact hsuf
      · have : s1.st = .GOT_LENGTH2 := by simp [s1, he]
        rw [this]
        exact ⟨hl, Or.inl ⟨by show s.head + 1 < s.len; omega, hsuf⟩⟩
    · refine ⟨{ s with prev := b }, [], ?_, ⟨(hlast _).symm, ?_⟩, Or.inl rfl⟩
      · unfold step dispatchByte; rw [hst]; simp only; rw [if_neg h]; simp [hst]
      · rw [hst]
        refine ⟨hl, Or.inr ?_⟩
        rcases hh with hh | hh
        · exact absurd hh.1 h
        · exact hh
  | GOT_PAYLOAD =>
    rw [hst] at hi
    obtain ⟨hi, hl, h0⟩ := hi
    refine ⟨{ s with prev := b, ckA := b, st := .GOT_CK_A }, [], ?_, ⟨(hlast _).symm, ?_, hl, h0⟩, Or.inl rfl⟩
    · unfold step dispatchByte; rw [hst]; simp
    · exact suffix_snoc' b hi rfl
  | GOT_CK_A =>
    rw [hst] at hi
    obtain ⟨hi, hl, h0⟩ := hi
    let s4 : St := { s with ckB := b, st := .GOT_CK_B }
    let s5 : St := { s4 with st := .START, prev := b }
    have hd : dispatchByte s b = some s4 := by unfold dispatchByte; rw [hst]
    cases hdec : decodeMessage s4 with
    | none =>
      refine ⟨s5, [], ?_, ⟨(hlast _).symm, trivial⟩, Or.inl rfl⟩
      unfold step; rw [hd]; simp only; rw [if_pos rfl, hdec]
    | some e =>
      refine ⟨s5, [e], ?_, ⟨(hlast _).symm, trivial⟩, Or.inr ⟨e, rfl, ?_⟩⟩
      · unfold step; rw [hd]; simp only; rw [if_pos rfl, hdec]
      · unfold decodeMessage at hdec
        rw [checksum_eq _ _ _ _ (by show s.len < _; omega)] at hdec
        simp only at hdec
        split at hdec
        · cases hdec
        · rename_i hc
          simp only [ne_eq, not_or, Decidable.not_not] at hc
          obtain ⟨ha, hbb⟩ := hc
          simp only [Option.some.injEq] at hdec
          subst hdec
          have hpl : payloadOf s4 = (List.range s.len).map s.buf := rfl
          simp only [hpl, List.length_map, List.length_range]
          refine ⟨suffix_snoc' b hi ?_, h0, hl⟩
          change sumA (body s.cls s.typ ((List.range s.len).map s.buf)) = s.ckA at ha
          change sumB (body s.cls s.typ ((List.range s.len).map s.buf)) = b at hbb
          have e1 : s4.cls = s.cls := rfl
          have e2 : s4.typ = s.typ := rfl
          unfold frame
          rw [e1, e2, ha, hbb]
          unfold body hdr
          simp
  | GOT_CK_B => rw [hst] at hi; exact hi.elim

/-- The invariant along a run. -/
theorem run_inv (bs : List UInt8) (hist : List UInt8) (s : St) (hi : Inv hist s) :
    ∃ s' es, run s bs = some (s', es) ∧ Inv (hist ++ bs) s' := by
  induction bs generalizing hist s with
  | nil => exact ⟨s, [], rfl, by simpa using hi⟩
  | cons b bs ih =>
    obtain ⟨s1, e1, h1, i1, _⟩ := step_inv hist s b hi
    obtain ⟨s2, e2, h2, i2⟩ := ih _ s1 i1
    exact ⟨s2, e1 ++ e2, run_cons _ _ _ _ _ _ _ h1 h2, by simpa using i2⟩

theorem inv_init (b : Nat → UInt8) : Inv [] (init b) := ⟨rfl, trivial⟩

/-- Waiting for payload bytes of a frame that announced none. -/
def Stuck (s : St) : Prop := s.st = .GOT_LENGTH2 ∧ s.len = 0

theorem stuck_step (s : St) (b : UInt8) (h : Stuck s) :
    step s b = some ({ s with prev := b }, []) := by
  obtain ⟨h1, h2⟩ := h
  unfold step dispatchByte
  rw [h1]
  simp only
  rw [if_neg (by omega)]
  simp [h1]

theorem stuck_run (bs : List UInt8) (s : St) (h : Stuck s) :
    ∃ s', run s bs = some (s', []) ∧ Stuck s' := by
  induction bs generalizing s with
  | nil => exact ⟨s, rfl, h⟩
  | cons b bs ih =>
    obtain ⟨s', h1, h2⟩ := ih { s with prev := b } h
    exact ⟨s', run_cons _ _ _ _ _ _ _ (stuck_step s b h) h1, h2⟩

/-- Upper bound on the number of bytes to the end of the current frame. -/
def todo (s : St) : Nat :=
  match s.st with
  | .START => 0
  | .GOT_START_FRAME => 2054
  | .GOT_CLASS => 2053
  | .GOT_MSG_ID => 2052
  | .GOT_LENGTH1 => 2051
  | .GOT_LENGTH2 => s.len - s.head + 2
  | .GOT_PAYLOAD => 2
  | .GOT_CK_A => 1
  | .GOT_CK_B => 0

theorem todo_step (hist : List UInt8) (s : St) (b : UInt8) (hi : Inv hist s) (hs : s.st ≠ .START)
    (hk : ¬ Stuck s) (s' : St) (es : List Event) (h : step s b = some (s', es)) :
    s'.st = .START ∨ Stuck s' ∨ todo s' < todo s := by
  obtain ⟨hp, hi⟩ := hi
  cases hst : s.st with
  | START => exact absurd hst hs
  | GOT_START_FRAME => simp [step, dispatchByte, hst] at h; simp [← h.1, todo, hst]
  | GOT_CLASS => simp [step, dispatchByte, hst] at h; simp [← h.1, todo, hst]
  | GOT_MSG_ID => simp [step, dispatchByte, hst] at h; simp [← h.1, todo, hst]
  | GOT_LENGTH1 =>
    rw [hst] at hi
    obtain ⟨_, h0, hl⟩ := hi
    simp only [step, dispatchByte, hst] at h
    by_cases hb : s.len ||| (b.toNat <<< 8) > BUFFER_SIZE
    · rw [if_pos hb] at h
      simp at h; left; rw [← h.1]
    · rw [if_neg hb] at h
      simp at h
      right; right
      rw [← h.1]
      simp only [todo, hst]
      unfold BUFFER_SIZE at hb
      omega
  | GOT_LENGTH2 =>
    rw [hst] at hi
    obtain ⟨hl, hh⟩ := hi
    rcases hh with ⟨hh, _⟩ | hh
    · simp only [step, dispatchByte, hst] at h
      rw [if_pos hh, if_pos (by unfold BUFFER_SIZE; omega)] at h
      simp only at h
      rw [if_neg (by split <;> simp)] at h
      simp only [Option.some.injEq, Prod.mk.injEq] at h
      right; right
      rw [← h.1]
      simp only [todo, hst]
      by_cases he : s.head = s.len - 1
      · rw [if_pos he]; simp only; omega
      · rw [if_neg he]; simp only; omega
    · exact absurd ⟨hst, hh⟩ hk
  | GOT_PAYLOAD => simp [step, dispatchByte, hst] at h; simp [← h.1, todo, hst]
  | GOT_CK_A =>
    left
    unfold step at h
    have hd : dispatchByte s b = some { s with ckB := b, st := .GOT_CK_B } := by
      unfold dispatchByte; rw [hst]
    rw [hd] at h
    simp only [if_true] at h
    cases hdec : decodeMessage { s with ckB := b, st := .GOT_CK_B } <;>
      (rw [hdec] at h; simp at h; rw [← h.1])
  | GOT_CK_B => rw [hst] at hi; exact hi.elim

theorem todo_le (hist : List UInt8) (s : St) (hi : Inv hist s) : todo s ≤ 2054 := by
  obtain ⟨_, hi⟩ := hi
  unfold todo
  cases hst : s.st with
  | GOT_LENGTH2 => rw [hst] at hi; simp only; have := hi.1; omega
  | _ => simp

/-- Some prefix of any long enough input brings the parser back to `START`, or traps it. -/
theorem recover (n : Nat) (bs : List UInt8) (hist : List UInt8) (s : St) (hi : Inv hist s)
    (ht : todo s ≤ n) (hn : n ≤ bs.length) :
    ∃ k, k ≤ n ∧ ∃ s' es, run s (bs.take k) = some (s', es) ∧ (s'.st = .START ∨ Stuck s') := by
  by_cases hs : s.st = .START
  · exact ⟨0, by omega, s, [], by simp [run], Or.inl hs⟩
  by_cases hk : Stuck s
  · exact ⟨0, by omega, s, [], by simp [run], Or.inr hk⟩
  have hpos : 0 < todo s := by
    obtain ⟨_, hi⟩ := hi
    unfold todo
    cases hst : s.st with
    | START => exact absurd hst hs
    | GOT_CK_B => rw [hst] at hi; exact hi.elim
    | _ => simp
  induction n generalizing bs hist s with
  | zero => omega
  | succ n ih =>
    cases bs with
    | nil => simp at hn
    | cons b bs =>
      obtain ⟨s1, e1, h1, i1, _⟩ := step_inv hist s b hi
      have hstop : (s1.st = .START ∨ Stuck s1) → ∃ k, k ≤ n + 1 ∧ ∃ s' es,
          run s ((b :: bs).take k) = some (s', es) ∧ (s'.st = .START ∨ Stuck s') := by
        intro h
        exact ⟨1, by omega, s1, e1, by simp [run, h1], h⟩
      by_cases hs1 : s1.st = .START
      · exact hstop (Or.inl hs1)
      by_cases hk1 : Stuck s1
      · exact hstop (Or.inr hk1)
      have hlt : todo s1 < todo s := by
        rcases todo_step hist s b hi hs hk s1 e1 h1 with h | h | h
        · exact absurd h hs1
        · exact absurd h hk1
        · exact h
      have hpos1 : 0 < todo s1 := by
        obtain ⟨_, i1⟩ := i1
        unfold todo
        cases hst : s1.st with
        | START => exact absurd hst hs1
        | GOT_CK_B => rw [hst] at i1; exact i1.elim
        | _ => simp
      obtain ⟨k, hk', s', es, hr, hfin⟩ := ih bs _ s1 i1 (by omega) (by simp at hn; omega) hs1 hk1 hpos1
      exact ⟨k + 1, by omega, s', e1 ++ es, by
        rw [List.take_succ_cons]; exact run_cons _ _ _ _ _ _ _ h1 hr, hfin⟩

theorem run_append_inv (l₁ l₂ : List UInt8) (s s₂ : St) (e : List Event)
    (h : run s (l₁ ++ l₂) = some (s₂, e)) :
    ∃ s₁ e₁ e₂, run s l₁ = some (s₁, e₁) ∧ run s₁ l₂ = some (s₂, e₂) ∧ e = e₁ ++ e₂ := by
  induction l₁ generalizing s e with
  | nil => exact ⟨s, [], e, rfl, by simpa using h, rfl⟩
  | cons b l ih =>
    rw [List.cons_append, run] at h
    cases hs : step s b with
    | none => rw [hs] at h; cases h
    | some p =>
      obtain ⟨s', e'⟩ := p
      rw [hs] at h
      simp only at h
      cases hr : run s' (l ++ l₂) with
      | none => rw [hr] at h; cases h
      | some q =>
        obtain ⟨t, e''⟩ := q
        rw [hr] at h
        simp only [Option.some.injEq, Prod.mk.injEq] at h
        obtain ⟨rfl, rfl⟩ := h
        obtain ⟨s₁, e₁, e₂, g1, g2, rfl⟩ := ih s' e'' hr
        exact ⟨s₁, e' ++ e₁, e₂, run_cons _ _ _ _ _ _ _ hs g1, g2, by simp⟩

end Verif.Ubx
