import Verif.Model.Logging
/-!
# Lemmas on the codecs of the log files
-/
namespace Verif.Log

/-- A decoder that takes `n` bytes and, from the bytes of `x`, makes `u old x` of `old`. -/
structure Laws {α : Type} (c : Codec α) (n : Nat) (u : α → α → α) : Prop where
  len : ∀ x, (c.enc x).length = n
  rt : ∀ x old rest, c.dec ⟨c.enc x ++ rest, false, false⟩ old = (u old x, ⟨rest, false, false⟩)
  full : ∀ bs old, n ≤ bs.length → (c.dec ⟨bs, false, false⟩ old).2 = ⟨bs.drop n, false, false⟩
  short : ∀ bs old, bs.length < n → (c.dec ⟨bs, false, false⟩ old).2.eof = true
  keep : ∀ s old, s.eof = true → (c.dec s old).2.eof = true

/-- Object representations that can be read back. -/
class LawfulRaw (α : Type) [Raw α] : Prop where
  len : ∀ x : α, (Raw.toBytes x).length = Raw.size α
  rt : ∀ x : α, Raw.ofBytes (Raw.toBytes x) = x

/-- Codecs of fixed size that can be read back. -/
class Lawful (α : Type) [c : Codec α] where
  size : Nat
  laws : Laws c size (fun _ x => x)

theorem encLE_length (n x : Nat) : (encLE n x).length = n := by
  induction n generalizing x with
  | zero => rfl
  | succ n ih => simp [encLE, ih]

theorem decLE_encLE (n x : Nat) : decLE (encLE n x) = x % 256 ^ n := by
  induction n generalizing x with
  | zero => simp [encLE, decLE, Nat.mod_one]
  | succ n ih =>
    have h : (256 : Nat) ^ (n + 1) = 256 * 256 ^ n := Nat.pow_succ'
    rw [encLE, decLE, ih, h, Nat.mod_mul, UInt8.toNat_ofNat']

instance : LawfulRaw UInt8 := ⟨fun _ => encLE_length _ _, fun x => by
  show UInt8.ofNat (decLE (encLE 1 x.toNat)) = x
  rw [decLE_encLE, Nat.mod_eq_of_lt (by have := x.toNat_lt; omega)]; simp⟩
instance : LawfulRaw UInt16 := ⟨fun _ => encLE_length _ _, fun x => by
  show UInt16.ofNat (decLE (encLE 2 x.toNat)) = x
  rw [decLE_encLE, Nat.mod_eq_of_lt (by have := x.toNat_lt; omega)]; simp⟩
instance : LawfulRaw UInt32 := ⟨fun _ => encLE_length _ _, fun x => by
  show UInt32.ofNat (decLE (encLE 4 x.toNat)) = x
  rw [decLE_encLE, Nat.mod_eq_of_lt (by have := x.toNat_lt; omega)]; simp⟩
instance : LawfulRaw Int32 := ⟨fun _ => encLE_length _ _, fun x => by
  show Int32.ofUInt32 (UInt32.ofNat (decLE (encLE 4 x.toUInt32.toNat))) = x
  rw [decLE_encLE, Nat.mod_eq_of_lt (by have := x.toUInt32.toNat_lt; omega)]; simp⟩
instance : LawfulRaw Int64 := ⟨fun _ => encLE_length _ _, fun x => by
  show Int64.ofUInt64 (UInt64.ofNat (decLE (encLE 8 x.toUInt64.toNat))) = x
  rw [decLE_encLE, Nat.mod_eq_of_lt (by have := x.toUInt64.toNat_lt; omega)]; simp⟩
instance : LawfulRaw F64 := ⟨fun _ => encLE_length _ _, fun x => by
  show F64.mk (UInt64.ofNat (decLE (encLE 8 x.bits.toNat))) = x
  rw [decLE_encLE, Nat.mod_eq_of_lt (by have := x.bits.toNat_lt; omega)]; simp⟩

section
variable {α : Type} [Raw α] [LawfulRaw α]

theorem flatMap_len (l : List α) : (l.flatMap Raw.toBytes).length = l.length * Raw.size α := by
  induction l with
  | nil => simp
  | cons a l ih => simp [List.flatMap_cons, ih, LawfulRaw.len, Nat.add_mul, Nat.add_comm]

theorem flatMap_chunk (l : List α) (i : Nat) (h : i < l.length) :
    ((l.flatMap Raw.toBytes).drop (i * Raw.size α)).take (Raw.size α) = Raw.toBytes l[i] := by
  induction l generalizing i with
  | nil => simp at h
  | cons a l ih =>
    cases i with
    | zero => simp [List.flatMap_cons, List.take_append, LawfulRaw.len,
        List.take_of_length_le (Nat.le_of_eq (LawfulRaw.len a))]
    | succ i =>
      have hl : (Raw.toBytes a).length = Raw.size α := LawfulRaw.len a
      rw [List.flatMap_cons, List.drop_append, List.drop_eq_nil_of_le
        (by rw [hl, Nat.add_mul]; omega), List.nil_append, hl,
        show (i + 1) * Raw.size α - Raw.size α = i * Raw.size α by rw [Nat.add_mul]; omega]
      simpa using ih i (by simpa using h)

instance {n : Nat} : LawfulRaw (Vector α n) where
  len v := by
    show (v.toList.flatMap Raw.toBytes).length = n * Raw.size α
    rw [flatMap_len]; simp
  rt v := by
    show Vector.ofFn (fun i : Fin n => Raw.ofBytes (((v.toList.flatMap Raw.toBytes).drop
      (i.val * Raw.size α)).take (Raw.size α))) = v
    ext i hi
    rw [Vector.getElem_ofFn, flatMap_chunk _ _ (by simpa using hi), LawfulRaw.rt]
    simp

theorem raw_laws : Laws (inferInstance : Codec α) (Raw.size α) (fun _ x => x) where
  len x := LawfulRaw.len x
  rt x old rest := by
    show (let r := (IStream.mk (Raw.toBytes x ++ rest) false false).readInto (Raw.toBytes old)
      ((Raw.ofBytes r.1 : α), r.2)) = _
    have hx : (Raw.toBytes x).length = Raw.size α := LawfulRaw.len x
    have ho : (Raw.toBytes old).length = Raw.size α := LawfulRaw.len old
    simp [IStream.readInto, IStream.read, hx, ho, List.take_append, List.drop_append,
      List.take_of_length_le (Nat.le_of_eq hx), List.drop_eq_nil_of_le (Nat.le_of_eq hx),
      List.drop_eq_nil_of_le (Nat.le_of_eq ho), LawfulRaw.rt]
  full bs old h := by
    show ((IStream.mk bs false false).readInto (Raw.toBytes old)).2 = _
    have ho : (Raw.toBytes old).length = Raw.size α := LawfulRaw.len old
    simp [IStream.readInto, IStream.read, ho, h]
  short bs old h := by
    show ((IStream.mk bs false false).readInto (Raw.toBytes old)).2.eof = _
    have ho : (Raw.toBytes old).length = Raw.size α := LawfulRaw.len old
    simp [IStream.readInto, IStream.read, ho, Nat.not_le.2 h]
  keep s old h := by
    show (s.readInto (Raw.toBytes old)).2.eof = true
    simp [IStream.readInto, IStream.read, h]

instance : Lawful α := ⟨Raw.size α, raw_laws⟩

theorem chunks_flatMap (l : List α) :
    chunks l.length (l.flatMap Raw.toBytes) = l := by
  induction l with
  | nil => rfl
  | cons a l ih =>
    have hl : (Raw.toBytes a).length = Raw.size α := LawfulRaw.len a
    simp [chunks, List.flatMap_cons, List.take_append, List.drop_append, hl,
      List.take_of_length_le (Nat.le_of_eq hl), List.drop_eq_nil_of_le (Nat.le_of_eq hl),
      LawfulRaw.rt, ih]
end

/-- What the fields of `x` make of an object. -/
def overwrite {σ : Type} (fs : List (Fld σ)) (o x : σ) : σ :=
  fs.foldl (fun o f => f.set (f.get x) o) o

theorem recEnc_cons {σ : Type} (f : Fld σ) (fs : List (Fld σ)) (x : σ) :
    (recCodec (f :: fs)).enc x = f.codec.enc (f.get x) ++ (recCodec fs).enc x := rfl

theorem recDec_cons {σ : Type} (f : Fld σ) (fs : List (Fld σ)) (s : IStream) (o : σ) :
    (recCodec (f :: fs)).dec s o = (recCodec fs).dec (f.codec.dec s (f.get o)).2
      (f.set (f.codec.dec s (f.get o)).1 o) := rfl

theorem rec_laws {σ : Type} {fs : List (Fld σ)} {ns : List Nat}
    (h : List.Forall₂ (fun f n => Laws f.codec n (fun _ x => x)) fs ns) :
    Laws (recCodec fs) ns.sum (overwrite fs) := by
  induction h with
  | nil => exact ⟨fun _ => rfl, fun _ _ _ => rfl, fun _ _ _ => rfl, fun _ _ h => by simp at h,
      fun _ _ h => h⟩
  | @cons f n fs ns hf _ ih =>
    refine ⟨?_, ?_, ?_, ?_, ?_⟩
    · intro x
      rw [recEnc_cons, List.length_append, hf.len, ih.len, List.sum_cons]
    · intro x old rest
      rw [recDec_cons, recEnc_cons, List.append_assoc, hf.rt, ih.rt]
      rfl
    · intro bs old hl
      rw [List.sum_cons] at hl ⊢
      rw [recDec_cons, hf.full _ _ (by omega), ih.full _ _ (by simp; omega), List.drop_drop]
    · intro bs old hl
      rw [List.sum_cons] at hl
      rw [recDec_cons]
      by_cases hn : n ≤ bs.length
      · rw [hf.full _ _ hn]
        exact ih.short _ _ (by simp; omega)
      · exact ih.keep _ _ (hf.short _ _ (by omega))
    · intro s old hs
      rw [recDec_cons]
      exact ih.keep _ _ (hf.keep _ _ hs)

theorem prod_laws {α β : Type} {c : Codec α} {d : Codec β} {m n : Nat} {u : α → α → α}
    {v : β → β → β} (hc : Laws c m u) (hd : Laws d n v) :
    Laws (inferInstance : Codec (α × β)) (m + n) (fun o x => (u o.1 x.1, v o.2 x.2)) where
  len x := by
    show (c.enc x.1 ++ d.enc x.2).length = _
    rw [List.length_append, hc.len, hd.len]
  rt x old rest := by
    show (let r := c.dec ⟨(c.enc x.1 ++ d.enc x.2) ++ rest, false, false⟩ old.1
      let r' := d.dec r.2 old.2
      ((r.1, r'.1), r'.2)) = _
    rw [List.append_assoc, hc.rt]
    simp only
    rw [hd.rt]
  full bs old h := by
    show (d.dec (c.dec ⟨bs, false, false⟩ old.1).2 old.2).2 = _
    rw [hc.full _ _ (by omega), hd.full _ _ (by simp; omega), List.drop_drop]
  short bs old h := by
    show (d.dec (c.dec ⟨bs, false, false⟩ old.1).2 old.2).2.eof = _
    by_cases hn : m ≤ bs.length
    · rw [hc.full _ _ hn]
      exact hd.short _ _ (by simp; omega)
    · exact hd.keep _ _ (hc.short _ _ (by omega))
  keep s old h := hd.keep _ _ (hc.keep _ _ h)

instance {α β : Type} [Codec α] [Codec β] [Lawful α] [Lawful β] : Lawful (α × β) :=
  ⟨Lawful.size α + Lawful.size β, prod_laws Lawful.laws Lawful.laws⟩

instance : Lawful Stamp :=
  ⟨[Lawful.size Int64, Lawful.size Int64].sum,
    rec_laws (.cons Lawful.laws (.cons Lawful.laws .nil))⟩
instance : Lawful ImuSample :=
  ⟨[Lawful.size Stamp, Lawful.size (Vector F64 3), Lawful.size (Vector F64 3)].sum,
    rec_laws (.cons Lawful.laws (.cons Lawful.laws (.cons Lawful.laws .nil)))⟩
instance : Lawful GnssObservation :=
  ⟨[Lawful.size Stamp, Lawful.size UInt8, Lawful.size UInt8, Lawful.size F64, Lawful.size F64,
    Lawful.size F64, Lawful.size F64].sum,
    rec_laws (.cons Lawful.laws (.cons Lawful.laws (.cons Lawful.laws (.cons Lawful.laws
      (.cons Lawful.laws (.cons Lawful.laws (.cons Lawful.laws .nil)))))))⟩
instance : Lawful Quat :=
  ⟨[Lawful.size (Vector F64 4)].sum, rec_laws (.cons Lawful.laws .nil)⟩
instance : Lawful Pose :=
  ⟨[Lawful.size Quat, Lawful.size (Vector F64 3)].sum,
    rec_laws (.cons Lawful.laws (.cons Lawful.laws .nil))⟩
instance : Lawful Jet :=
  ⟨[Lawful.size Pose, Lawful.size (Vector F64 6)].sum,
    rec_laws (.cons Lawful.laws (.cons Lawful.laws .nil))⟩
instance : Lawful TwoJet :=
  ⟨[Lawful.size Pose, Lawful.size (Vector F64 6), Lawful.size (Vector F64 6)].sum,
    rec_laws (.cons Lawful.laws (.cons Lawful.laws (.cons Lawful.laws .nil)))⟩

/-- Sizes of the members of `GpsEph` in the log. -/
def GpsEph.sizes : List Nat :=
  [Lawful.size UInt8, Lawful.size UInt8, Lawful.size Stamp, Lawful.size Stamp, Lawful.size
  UInt32, Lawful.size UInt16, Lawful.size UInt8, Lawful.size UInt16, Lawful.size UInt32,
  Lawful.size UInt32, Lawful.size F64, Lawful.size F64, Lawful.size F64, Lawful.size F64,
  Lawful.size F64, Lawful.size F64, Lawful.size F64, Lawful.size F64, Lawful.size F64,
  Lawful.size F64, Lawful.size F64, Lawful.size F64, Lawful.size F64, Lawful.size F64,
  Lawful.size F64, Lawful.size F64, Lawful.size F64, Lawful.size F64, Lawful.size UInt8,
  Lawful.size UInt8, Lawful.size UInt8, Lawful.size UInt8, Lawful.size UInt8, Lawful.size UInt8,
  Lawful.size UInt8, Lawful.size UInt16, Lawful.size F64]

theorem gps_laws : Laws (inferInstance : Codec GpsEph) GpsEph.sizes.sum (overwrite GpsEph.fields) :=
  rec_laws
    (.cons Lawful.laws (.cons Lawful.laws (.cons Lawful.laws (.cons Lawful.laws (.cons
    Lawful.laws (.cons Lawful.laws (.cons Lawful.laws (.cons Lawful.laws (.cons Lawful.laws
    (.cons Lawful.laws (.cons Lawful.laws (.cons Lawful.laws (.cons Lawful.laws (.cons
    Lawful.laws (.cons Lawful.laws (.cons Lawful.laws (.cons Lawful.laws (.cons Lawful.laws
    (.cons Lawful.laws (.cons Lawful.laws (.cons Lawful.laws (.cons Lawful.laws (.cons
    Lawful.laws (.cons Lawful.laws (.cons Lawful.laws (.cons Lawful.laws (.cons Lawful.laws
    (.cons Lawful.laws (.cons Lawful.laws (.cons Lawful.laws (.cons Lawful.laws (.cons
    Lawful.laws (.cons Lawful.laws (.cons Lawful.laws (.cons Lawful.laws (.cons Lawful.laws
    (.cons Lawful.laws .nil)))))))))))))))))))))))))))))))))))))

/-- Sizes of the members of `GalEph` in the log. -/
def GalEph.sizes : List Nat :=
  [Lawful.size UInt8, Lawful.size UInt8, Lawful.size Stamp, Lawful.size Stamp, Lawful.size
  UInt32, Lawful.size UInt16, Lawful.size UInt8, Lawful.size UInt16, Lawful.size UInt32,
  Lawful.size UInt32, Lawful.size F64, Lawful.size F64, Lawful.size F64, Lawful.size F64,
  Lawful.size F64, Lawful.size F64, Lawful.size F64, Lawful.size F64, Lawful.size F64,
  Lawful.size F64, Lawful.size F64, Lawful.size F64, Lawful.size F64, Lawful.size F64,
  Lawful.size F64, Lawful.size F64, Lawful.size F64, Lawful.size F64, Lawful.size F64,
  Lawful.size F64, Lawful.size F64, Lawful.size F64, Lawful.size F64, Lawful.size UInt8,
  Lawful.size UInt8, Lawful.size UInt8, Lawful.size UInt8]

theorem gal_laws : Laws (inferInstance : Codec GalEph) GalEph.sizes.sum (overwrite GalEph.fields) :=
  rec_laws
    (.cons Lawful.laws (.cons Lawful.laws (.cons Lawful.laws (.cons Lawful.laws (.cons
    Lawful.laws (.cons Lawful.laws (.cons Lawful.laws (.cons Lawful.laws (.cons Lawful.laws
    (.cons Lawful.laws (.cons Lawful.laws (.cons Lawful.laws (.cons Lawful.laws (.cons
    Lawful.laws (.cons Lawful.laws (.cons Lawful.laws (.cons Lawful.laws (.cons Lawful.laws
    (.cons Lawful.laws (.cons Lawful.laws (.cons Lawful.laws (.cons Lawful.laws (.cons
    Lawful.laws (.cons Lawful.laws (.cons Lawful.laws (.cons Lawful.laws (.cons Lawful.laws
    (.cons Lawful.laws (.cons Lawful.laws (.cons Lawful.laws (.cons Lawful.laws (.cons
    Lawful.laws (.cons Lawful.laws (.cons Lawful.laws (.cons Lawful.laws (.cons Lawful.laws
    (.cons Lawful.laws .nil)))))))))))))))))))))))))))))))))))))

/-- Sizes of the members of `GloEph` in the log. -/
def GloEph.sizes : List Nat :=
  [Lawful.size UInt8, Lawful.size UInt8, Lawful.size Stamp, Lawful.size Int32, Lawful.size
  Int32, Lawful.size Int32, Lawful.size Int32, Lawful.size Int32, Lawful.size Stamp, Lawful.size
  Stamp, Lawful.size (Vector F64 3), Lawful.size (Vector F64 3), Lawful.size (Vector F64 3),
  Lawful.size F64, Lawful.size F64, Lawful.size F64]

theorem glo_laws : Laws (inferInstance : Codec GloEph) GloEph.sizes.sum (overwrite GloEph.fields) :=
  rec_laws
    (.cons Lawful.laws (.cons Lawful.laws (.cons Lawful.laws (.cons Lawful.laws (.cons
    Lawful.laws (.cons Lawful.laws (.cons Lawful.laws (.cons Lawful.laws (.cons Lawful.laws
    (.cons Lawful.laws (.cons Lawful.laws (.cons Lawful.laws (.cons Lawful.laws (.cons
    Lawful.laws (.cons Lawful.laws (.cons Lawful.laws .nil))))))))))))))))

theorem gps_over (o x : GpsEph) : overwrite GpsEph.fields o x =
    { x with iode1 := o.iode1, iode2 := o.iode2, iode3 := o.iode3,
             collected_subframes := o.collected_subframes } := rfl
theorem gal_over (o x : GalEph) : overwrite GalEph.fields o x =
    { x with collected_subframes := o.collected_subframes, time_f := o.time_f, iod := o.iod } := rfl
theorem glo_over (o x : GloEph) : overwrite GloEph.fields o x =
    { x with frame_flags_ := o.frame_flags_, time_mark_ := o.time_mark_, tk_h_ := o.tk_h_,
             tk_m_ := o.tk_m_, tk_s_ := o.tk_s_, tb_ := o.tb_, NT_ := o.NT_, N4_ := o.N4_,
             NA_ := o.NA_ } := rfl

end Verif.Log
