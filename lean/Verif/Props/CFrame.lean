import Verif.Spec.Rotation
import Verif.Spec.Binary
import Verif.Rbxl.CodecValues
/-!
# C26: CFrame rotation ids
-/
namespace Props
open Go Rbxfile Rbxl Spec

instance (f : F32) (n : Int) : Decidable (IsInt f n) := by unfold IsInt; infer_instance

theorem goEq_zero {a b : F32} (hb : b.isZero = true) : a.goEq b = true ↔ a.isZero = true := by
  have nz : ∀ c : F32, c.isZero = true → c.isNaN = false := by
    intro c hc
    simp only [F32.isZero, beq_iff_eq] at hc
    simp [F32.isNaN, hc]
  constructor
  · intro h
    simp only [F32.goEq, Bool.and_eq_true, Bool.or_eq_true, beq_iff_eq] at h
    rcases h.2 with h | h
    · exact h ▸ hb
    · exact h.1
  · intro h
    simp [F32.goEq, nz a h, nz b hb, h, hb]

theorem goEq_ne_zero {a b : F32} (hz : b.isZero = false) (hn : b.isNaN = false) :
    a.goEq b = true ↔ a = b := by
  constructor
  · intro h
    simp only [F32.goEq, hz, Bool.and_eq_true, Bool.or_eq_true, beq_iff_eq, Bool.and_false,
      Bool.false_eq_true, or_false] at h
    exact h.2
  · rintro rfl; simp [F32.goEq, hn]

theorem goEq_symm (a b : F32) : a.goEq b = b.goEq a := by
  simp only [F32.goEq]
  cases a.isNaN <;> cases b.isNaN <;> simp [Bool.and_comm, BEq.comm]

/-- The value of a table entry as an integer. -/
def intOf (f : F32) : Int := if f = f32One then 1 else if f = f32NegOne then -1 else 0

theorem goEq_isInt {a b : F32} (h : IsInt b (intOf b)) : b.goEq a = true ↔ IsInt a (intOf b) := by
  rw [goEq_symm]
  rcases h with ⟨h1, h2⟩ | ⟨h1, h2⟩ | ⟨h1, h2⟩
  · rw [goEq_zero h2, h1]; simp [IsInt]
  · subst h2; rw [goEq_ne_zero (by decide) (by decide)]
    constructor
    · rintro rfl; decide
    · intro h; rcases h with ⟨h, _⟩ | ⟨_, h⟩ | ⟨h, _⟩
      · exact absurd h (by decide)
      · exact h
      · exact absurd h (by decide)
  · subst h2; rw [goEq_ne_zero (by decide) (by decide)]
    constructor
    · rintro rfl; decide
    · intro h; rcases h with ⟨h, _⟩ | ⟨h, _⟩ | ⟨_, h⟩
      · exact absurd h (by decide)
      · exact absurd h (by decide)
      · exact h

/-- The columns of a table entry. -/
def colX (m : Matrix) : IVec := ⟨intOf m.m0, intOf m.m3, intOf m.m6⟩
def colY (m : Matrix) : IVec := ⟨intOf m.m1, intOf m.m4, intOf m.m7⟩
def colZ (m : Matrix) : IVec := ⟨intOf m.m2, intOf m.m5, intOf m.m8⟩

/-- Every number of the matrix is 0, 1 or -1. -/
def unitMatrix (m : Matrix) : Bool :=
  decide (IsInt m.m0 (intOf m.m0)) && decide (IsInt m.m1 (intOf m.m1)) &&
  decide (IsInt m.m2 (intOf m.m2)) && decide (IsInt m.m3 (intOf m.m3)) &&
  decide (IsInt m.m4 (intOf m.m4)) && decide (IsInt m.m5 (intOf m.m5)) &&
  decide (IsInt m.m6 (intOf m.m6)) && decide (IsInt m.m7 (intOf m.m7)) &&
  decide (IsInt m.m8 (intOf m.m8))

theorem matrixEq_columns {t m : Matrix} (h : unitMatrix t = true) :
    matrixEq t m = true ↔ Columns m (colX t) (colY t) (colZ t) := by
  simp only [unitMatrix, Bool.and_eq_true, decide_eq_true_eq] at h
  obtain ⟨⟨⟨⟨⟨⟨⟨⟨h0, h1⟩, h2⟩, h3⟩, h4⟩, h5⟩, h6⟩, h7⟩, h8⟩ := h
  simp only [matrixEq, Bool.and_eq_true, goEq_isInt h0, goEq_isInt h1, goEq_isInt h2, goEq_isInt h3,
    goEq_isInt h4, goEq_isInt h5, goEq_isInt h6, goEq_isInt h7, goEq_isInt h8]
  constructor
  · rintro ⟨⟨⟨⟨⟨⟨⟨⟨h0, h1⟩, h2⟩, h3⟩, h4⟩, h5⟩, h6⟩, h7⟩, h8⟩
    exact ⟨h0, h3, h6, h1, h4, h7, h2, h5, h8⟩
  · rintro ⟨h0, h3, h6, h1, h4, h7, h2, h5, h8⟩
    exact ⟨⟨⟨⟨⟨⟨⟨⟨h0, h1⟩, h2⟩, h3⟩, h4⟩, h5⟩, h6⟩, h7⟩, h8⟩

theorem isInt_unique {f : F32} {a b : Int} (ha : IsInt f a) (hb : IsInt f b) : a = b := by
  have z1 : (f32One).isZero = false := by decide
  have z2 : (f32NegOne).isZero = false := by decide
  rcases ha with ⟨h1, h2⟩ | ⟨h1, h2⟩ | ⟨h1, h2⟩ <;> rcases hb with ⟨h3, h4⟩ | ⟨h3, h4⟩ | ⟨h3, h4⟩ <;>
    first
    | (rw [h1, h3]; done)
    | (subst h2; rw [z1] at h4; cases h4)
    | (subst h2; rw [z2] at h4; cases h4)
    | (subst h4; rw [z1] at h2; cases h2)
    | (subst h4; rw [z2] at h2; cases h2)
    | (rw [h2] at h4; exact absurd h4 (by decide))

theorem columns_unique {m : Matrix} {x y z x' y' z' : IVec} (h : Columns m x y z)
    (h' : Columns m x' y' z') : x = x' ∧ y = y' ∧ z = z' := by
  obtain ⟨x0, x1, x2⟩ := x; obtain ⟨y0, y1, y2⟩ := y; obtain ⟨z0, z1, z2⟩ := z
  obtain ⟨x0', x1', x2'⟩ := x'; obtain ⟨y0', y1', y2'⟩ := y'; obtain ⟨z0', z1', z2'⟩ := z'
  simp only [IVec.mk.injEq]
  exact ⟨⟨isInt_unique h.m0 h'.m0, isInt_unique h.m3 h'.m3, isInt_unique h.m6 h'.m6⟩,
    ⟨isInt_unique h.m1 h'.m1, isInt_unique h.m4 h'.m4, isInt_unique h.m7 h'.m7⟩,
    ⟨isInt_unique h.m2 h'.m2, isInt_unique h.m5 h'.m5, isInt_unique h.m8 h'.m8⟩⟩

theorem table_units : ∀ e ∈ cframeSpecialTable, unitMatrix e.2 = true := by decide +kernel

/-- The table: the id of an entry is 6 i + j + 1 for its normals i and j. -/
theorem table_ids : ∀ e ∈ cframeSpecialTable,
    normals[(e.1.toNat - 1) / 6]? = some (colX e.2) ∧ normals[(e.1.toNat - 1) % 6]? = some (colY e.2) ∧
    (colX e.2).dot (colY e.2) = 0 ∧ colZ e.2 = (colX e.2).cross (colY e.2) ∧ e.1 ≠ 0#8 := by
  decide +kernel

theorem table_complete : ∀ i ∈ List.range 6, ∀ j ∈ List.range 6,
    (normals[i]?.getD ⟨0, 0, 0⟩).dot (normals[j]?.getD ⟨0, 0, 0⟩) = 0 →
    ∃ e ∈ cframeSpecialTable, e.1 = BitVec.ofNat 8 (6 * i + j + 1) ∧
      colX e.2 = normals[i]?.getD ⟨0, 0, 0⟩ ∧ colY e.2 = normals[j]?.getD ⟨0, 0, 0⟩ := by
  decide +kernel

theorem table_columns_distinct : ∀ e ∈ cframeSpecialTable, ∀ e' ∈ cframeSpecialTable,
    colX e.2 = colX e'.2 → colY e.2 = colY e'.2 → e = e' := by decide +kernel

theorem table_keys_distinct : ∀ e ∈ cframeSpecialTable, ∀ e' ∈ cframeSpecialTable,
    e.1 = e'.1 → e = e' := by decide +kernel

/-- C26: a rotation has an id exactly when it turns the axes X and Y into two perpendicular normals
`i` and `j`, and the id is `6 i + j + 1`. Zeros are compared as numbers: `-0` is `0`. -/
theorem C26_id_iff_rotation (m : Matrix) (id : Byte) :
    cframeSpecialNumber m = some id ↔
      ∃ i j, RotationTo m i j ∧ id = BitVec.ofNat 8 (6 * i + j + 1) := by
  constructor
  · intro h
    simp only [cframeSpecialNumber, Option.map_eq_some_iff] at h
    obtain ⟨e, he, rfl⟩ := h
    have hm := List.mem_of_find?_eq_some he
    have hq : matrixEq e.2 m = true := by simpa using List.find?_some he
    obtain ⟨h1, h2, h3, h4, h5⟩ := table_ids e hm
    refine ⟨(e.1.toNat - 1) / 6, (e.1.toNat - 1) % 6, ⟨_, _, h1, h2, h3, ?_⟩, ?_⟩
    · rw [← h4]; exact (matrixEq_columns (table_units e hm)).1 hq
    · apply BitVec.eq_of_toNat_eq
      have : e.1.toNat ≠ 0 := fun h => h5 (BitVec.eq_of_toNat_eq (by simpa using h))
      have := e.1.isLt
      simp only [BitVec.toNat_ofNat]; omega
  · rintro ⟨i, j, ⟨x, y, hx, hy, hd, hc⟩, rfl⟩
    have hi : i < 6 := (List.getElem?_eq_some_iff.1 hx).1
    have hj : j < 6 := (List.getElem?_eq_some_iff.1 hy).1
    obtain ⟨e, he, hid, hX, hY⟩ := table_complete i (List.mem_range.2 hi) j (List.mem_range.2 hj)
      (by rw [hx, hy]; exact hd)
    rw [hx] at hX; rw [hy] at hY
    simp only [Option.getD_some] at hX hY
    have hZ : colZ e.2 = x.cross y := by rw [(table_ids e he).2.2.2.1, hX, hY]
    have hq : matrixEq e.2 m = true := by
      rw [matrixEq_columns (table_units e he), hX, hY, hZ]; exact hc
    simp only [cframeSpecialNumber, Option.map_eq_some_iff]
    cases hf : cframeSpecialTable.find? fun e => matrixEq e.2 m with
    | none =>
      have := List.find?_eq_none.1 hf e he
      exact absurd hq (by simpa using this)
    | some e' =>
      have hm' := List.mem_of_find?_eq_some hf
      have hq' : matrixEq e'.2 m = true := by simpa using List.find?_some hf
      have hc' := (matrixEq_columns (table_units e' hm')).1 hq'
      obtain ⟨e1, e2, _⟩ := columns_unique hc' hc
      have := table_columns_distinct e' hm' e he (by rw [e1, hX]) (by rw [e2, hY])
      exact ⟨e', rfl, by rw [this, hid]⟩

theorem normals_rotations : ∀ x ∈ normals, ∀ y ∈ normals, ∀ z ∈ normals, x.dot y = 0 → y.dot z = 0 →
    x.dot z = 0 → (x.cross y).dot z = 1 → z = x.cross y := by decide +kernel
theorem normals_handed : ∀ x ∈ normals, ∀ y ∈ normals, x.dot y = 0 →
    x.cross y ∈ normals ∧ y.dot (x.cross y) = 0 ∧ x.dot (x.cross y) = 0 ∧
    (x.cross y).dot (x.cross y) = 1 := by decide +kernel

/-- C26: exactly the rotations by multiples of 90 degrees have an id. -/
theorem C26_axis_aligned_iff (m : Matrix) : (cframeSpecialNumber m).isSome ↔ AxisAligned m := by
  rw [Option.isSome_iff_exists]
  constructor
  · rintro ⟨id, h⟩
    obtain ⟨i, j, ⟨x, y, hx, hy, hd, hc⟩, _⟩ := (C26_id_iff_rotation m id).1 h
    have mx := List.mem_of_getElem? hx
    have my := List.mem_of_getElem? hy
    obtain ⟨h1, h2, h3, h4⟩ := normals_handed x mx y my hd
    exact ⟨x, mx, y, my, x.cross y, h1, hc, hd, h2, h3, h4⟩
  · rintro ⟨x, mx, y, my, z, mz, hc, h1, h2, h3, h4⟩
    obtain ⟨i, hi⟩ := List.getElem?_of_mem mx
    obtain ⟨j, hj⟩ := List.getElem?_of_mem my
    have := normals_rotations x mx y my z mz h1 h2 h3 h4
    exact ⟨_, (C26_id_iff_rotation m _).2 ⟨i, j, ⟨x, y, hi, hj, h1, this ▸ hc⟩, rfl⟩⟩

/-- C26: there are 24 ids. -/
theorem C26_count : cframeSpecialTable.length = 24 ∧ (cframeSpecialTable.map Prod.fst).Nodup := by
  decide +kernel

/-- C26: the table is the one generated from the normals: for all 256 ids the matrix of the table
(zero for an id that is not in it) is the generated one, bit by bit. -/
theorem C26_table_generated (id : Byte) : cframeSpecialMatrix id = matrixFromID id := by
  have h : ∀ k : Fin 256, cframeSpecialMatrix (BitVec.ofFin k) = matrixFromID (BitVec.ofFin k) := by
    decide +kernel
  exact h id.toFin

/-- C26: decoding what was encoded: an axis-aligned rotation is written as one byte, not zero, before
the position, and comes back equal number by number; any other rotation is written as a zero byte
and its nine numbers, and comes back bit by bit. -/
theorem C26_round_trip {ρ : Type} (quat : Quat) (pos : Vector3) (m : Matrix) :
    (AxisAligned m →
      ∃ v id m', encodeValue (.cframe pos m : Value ρ) = some v ∧ id ≠ 0#8 ∧
        v.bytes = [id] ++ floatBytes pos.x ++ floatBytes pos.y ++ floatBytes pos.z ∧
        decodeValue (ρ := ρ) quat v = some (.cframe pos m') ∧ matrixEq m m' = true) ∧
    (¬ AxisAligned m →
      ∃ v, encodeValue (.cframe pos m : Value ρ) = some v ∧
        v.bytes = [0#8] ++ le32 m.m0 ++ le32 m.m1 ++ le32 m.m2 ++ le32 m.m3 ++ le32 m.m4 ++
          le32 m.m5 ++ le32 m.m6 ++ le32 m.m7 ++ le32 m.m8 ++
          floatBytes pos.x ++ floatBytes pos.y ++ floatBytes pos.z ∧
        decodeValue (ρ := ρ) quat v = some (.cframe pos m)) := by
  constructor
  · intro h
    obtain ⟨id, hid⟩ := Option.isSome_iff_exists.1 ((C26_axis_aligned_iff m).2 h)
    have hid' := hid
    simp only [cframeSpecialNumber, Option.map_eq_some_iff] at hid
    obtain ⟨e, he, rfl⟩ := hid
    have hm := List.mem_of_find?_eq_some he
    have hq : matrixEq e.2 m = true := by simpa using List.find?_some he
    have h0 := (table_ids e hm).2.2.2.2
    refine ⟨.cframe e.1 Rot.zero ⟨pos.x, pos.y, pos.z⟩, e.1, cframeSpecialMatrix e.1, ?_, h0, ?_, ?_, ?_⟩
    · simp only [encodeValue, hid']
    · simp [Val.bytes, h0, Vec3.bytes]
    · simp [decodeValue, h0]
    · have : cframeSpecialMatrix e.1 = e.2 := by
        simp only [cframeSpecialMatrix]
        cases hf : cframeSpecialTable.find? fun x => x.1 == e.1 with
        | none => exact absurd (List.find?_eq_none.1 hf e hm) (by simp)
        | some e' =>
          have h1 : e'.1 = e.1 := by simpa using List.find?_some hf
          rw [table_keys_distinct e' (List.mem_of_find?_eq_some hf) e hm h1]; rfl
      rw [this]
      simp only [matrixEq] at hq ⊢
      simpa only [goEq_symm] using hq
  · intro h
    have hid : cframeSpecialNumber m = none := by
      cases hc : cframeSpecialNumber m with
      | none => rfl
      | some x => exact absurd ((C26_axis_aligned_iff m).1 (by simp [hc])) h
    refine ⟨.cframe 0 (rotOfMatrix m) ⟨pos.x, pos.y, pos.z⟩, ?_, ?_, ?_⟩
    · simp only [encodeValue, hid]
    · simp [Val.bytes, Vec3.bytes, Rot.bytes, rotOfMatrix]
    · simp [decodeValue, rotOfMatrix, Rot.toMatrix]

/-- A quarter turn about the X axis is axis-aligned; the zero matrix is not. -/
example : AxisAligned ⟨f32One, 0, 0, 0, 0, f32NegOne, 0, f32One, 0⟩ := by
  rw [← C26_axis_aligned_iff]; decide +kernel
example : ¬ AxisAligned ⟨f32One, 0, 0, 0, 0, f32NegOne, 0, 0x3f000000, 0⟩ := by
  rw [← C26_axis_aligned_iff]; decide +kernel

end Props
