import Verif.SerLemmas

/-!
# Vector, matrix and network files: C31, C32, C33, C58 and the vector part of C53
-/

namespace Verif.Ser

open Spec

/-! ## C31 -/

/-- C31, vectors: what was written is read back, and the file stands just behind it. -/
theorem C31_vector (v : List Nat) (h : VecOk v) (rest : List UInt8) :
    readVec (writeVec v ++ rest) = .ok (v.map some, rest) := readVec_reads h rest

/-- Bits of 1.5 and -0.0: a vector that can be written. -/
example : VecOk [1069547520, 2147483648] := ⟨by decide, by decide, by decide⟩

example : readVec (writeVec [1069547520, 2147483648] ++ [7]) = .ok ([some 1069547520, some 2147483648], [7]) := by
  decide +kernel

/-- C31, vectors read in a row come back in order: nothing of one is taken for the other. -/
theorem C31_vectors (v w : List Nat) (hv : VecOk v) (hw : VecOk w) (rest : List UInt8) :
    (do let a ← readVec; let b ← readVec; pure (a, b) : Rd _) (writeVec v ++ (writeVec w ++ rest)) =
      .ok ((v.map some, w.map some), rest) := by
  rw [Rd.bind_of (C31_vector v hv _), Rd.bind_of (C31_vector w hw _)]
  rfl

example : VecOk [1] ∧ VecOk [2, 3] := ⟨⟨by decide, by decide, by decide⟩, by decide, by decide, by decide⟩

/-- C31, size check: a vector whose declared size is not four per element and four for the dimension is rejected,
whatever follows. -/
theorem C31_wrong_size (size dim : Int) (hs : InI32 size) (hd : InI32 dim) (h : size ≠ 4 + 4 * dim)
    (rest : List UInt8) :
    readVec ([86, 69, 67, 48] ++ (encI32 size ++ (encI32 dim ++ rest))) = bad .corruption := by
  unfold readVec
  rw [show ([86, 69, 67, 48] : List UInt8) = tagVec from rfl, vectorRead_head [] hs hd]
  unfold readElements
  rw [if_pos (by omega)]

/-- A declared size without the four bytes of the dimension. -/
example : InI32 8 ∧ InI32 2 ∧ (8 : Int) ≠ 4 + 4 * 2 := by
  refine ⟨⟨by decide, by decide⟩, ⟨by decide, by decide⟩, by decide⟩

/-- C31, matrices: what was written is read back, and the file stands just behind it. -/
theorem C31_matrix (m : List (List Nat)) (cols : Nat) (h : MatOk m cols) (rest : List UInt8) :
    readMat (writeMat m ++ rest) = .ok (m.map (·.map some), rest) := readMat_reads h rest

/-- Two rows of three elements. -/
theorem toyMat_ok : MatOk [[1, 2, 3], [4, 5, 6]] 3 := by
  refine ⟨by decide, ?_, by decide⟩
  intro r hr
  simp only [List.mem_cons, List.not_mem_nil, or_false] at hr
  rcases hr with rfl | rfl <;> exact ⟨rfl, by decide, by decide, by decide⟩

example : readMat (writeMat [[1, 2, 3], [4, 5, 6]] ++ [9]) =
    .ok ([[some 1, some 2, some 3], [some 4, some 5, some 6]], [9]) := by decide +kernel

/-- The empty vector is the exception: it can be written but not read back, since a read of no bytes counts as
failed. -/
theorem C31_empty_vector (rest : List UInt8) : readVec (writeVec [] ++ rest) = bad .io := by
  rw [writeVec_eq]
  unfold readVec
  simp only [List.append_assoc]
  rw [vectorRead_head [] ⟨by decide, by decide⟩ ⟨by decide, by decide⟩]
  rfl

/-! ## C32 -/

/-- C32 fails: the file of a matrix of two rows, cut off behind the first row, is read with status OK, and the second
row is a copy of the first. -/
theorem C32_fails :
    ∃ t u, writeMat [[1], [2]] = t ++ u ∧ u ≠ [] ∧ readMat t = .ok ([[some 1], [some 1]], []) :=
  ⟨(writeMat [[1], [2]]).take 32, (writeMat [[1], [2]]).drop 32, by decide +kernel, by decide +kernel,
    by decide +kernel⟩

/-- C32 fails with worse: cut off in the first row, the status is OK and the contents are indeterminate memory. -/
theorem C32_indeterminate :
    ∃ t u, writeMat [[1, 2], [3, 4]] = t ++ u ∧ u ≠ [] ∧
      readMat t = .ok ([[some 1, none], [some 1, none]], []) :=
  ⟨(writeMat [[1, 2], [3, 4]]).take 34, (writeMat [[1, 2], [3, 4]]).drop 34, by decide +kernel, by decide +kernel,
    by decide +kernel⟩

/-- C32, how far it fails: cut off behind any number of complete rows but not behind all, the file is read with
status OK, and every missing row is a copy of the last complete one. -/
theorem C32_missing_rows_are_copies (m : List (List Nat)) (r : List Nat) (m' : List (List Nat)) (cols : Nat)
    (h : MatOk (m ++ r :: m') cols) :
    readMat (([77, 65, 84, 48] ++ (encI32 8 ++ (encI32 (m ++ r :: m').length ++ (encI32 cols ++
        (m ++ [r]).flatMap writeVec))))) =
      .ok ((m ++ [r]).map (·.map some) ++ List.replicate m'.length (r.map some), []) := by
  obtain ⟨_, _, h1, h2, h3⟩ := matDims h
  rw [show ([77, 65, 84, 48] : List UInt8) = tagMat from rfl, readMat_head ⟨by decide, by decide⟩ h1 h2, h3]
  simp only [Int.toNat_natCast]
  exact readRows_copies cols m r m' h.2.1 []

example : MatOk ([[1, 2, 3]] ++ [4, 5, 6] :: []) 3 ∧ MatOk ([] ++ [1, 2, 3] :: [[4, 5, 6]]) 3 :=
  ⟨toyMat_ok, toyMat_ok⟩

/-- C32, exactly: the file of a matrix, cut off anywhere, is rejected if and only if the cut is before byte 28, that
is before the elements of the first row start.

Missing for C32: the cuts from byte 28 on, for which the claim is false by this theorem. -/
theorem C32_rejected_iff_partial (m : List (List Nat)) (cols : Nat) (h : MatOk m cols) (t u : List UInt8)
    (hw : writeMat m = t ++ u) (hu : u ≠ []) :
    (∃ c, readMat t = bad c) ↔ t.length < 28 := by
  obtain ⟨h1, h2⟩ := readMat_cut h hw hu
  constructor
  · intro ⟨c, hc⟩
    by_cases hl : t.length < 28
    · exact hl
    · obtain ⟨rows, hr⟩ := h2 (by omega)
      rw [hr] at hc
      cases hc
  · exact h1

/-- Cuts on both sides of byte 28. -/
example : MatOk [[1, 2, 3], [4, 5, 6]] 3 ∧ (writeMat [[1, 2, 3], [4, 5, 6]]).length = 64 :=
  ⟨toyMat_ok, by decide +kernel⟩

/-! ## C33 and C58 -/

/-- C33: the network file of the converter is read with status OK, giving the same contexts and the same layers. -/
theorem C33_round_trip (left right : Int) (hl : InI32 left) (hr : InI32 right) (ls : List (Nnet.Layer Nat))
    (hn : ls.length ≤ 2147483647) (h : ∀ l ∈ ls, LayerOk l) (rest : List UInt8) :
    readNnet (writeNnet left right ls ++ rest) = .ok (⟨left, right, ls.map full⟩, rest) :=
  (readNnet_ok hl hr hn h).1 rest

/-- A network with a layer of every kind the converter writes. -/
def toyNet : List (Nnet.Layer Nat) :=
  [.splice [-1, 0, 1], .linear [[1, 2, 3], [4, 5, 6]] [7, 8, 9], .relu, .batchNorm [1, 2] [3, 4], .narrow 1 1,
    .logSoftmax]

theorem toyNet_ok : ∀ l ∈ toyNet, LayerOk l := by
  intro l hl
  simp only [toyNet, List.mem_cons, List.not_mem_nil, or_false] at hl
  rcases hl with rfl | rfl | rfl | rfl | rfl | rfl
  · refine ⟨by decide, ?_⟩
    intro i hi
    simp only [List.mem_cons, List.not_mem_nil, or_false] at hi
    rcases hi with rfl | rfl | rfl <;> exact ⟨by decide, by decide⟩
  · exact ⟨⟨3, toyMat_ok⟩, by decide, by decide, by decide⟩
  · trivial
  · exact ⟨⟨by decide, by decide, by decide⟩, by decide, by decide, by decide⟩
  · exact ⟨⟨by decide, by decide⟩, by decide, by decide⟩
  · trivial

example : readNnet (writeNnet 1 1 toyNet) = .ok (⟨1, 1, toyNet.map full⟩, []) := by decide +kernel

/-- C33, nothing is lost: networks with the same file are the same. -/
theorem C33_injective (left right left' right' : Int) (hl : InI32 left) (hr : InI32 right) (hl' : InI32 left')
    (hr' : InI32 right') (ls ls' : List (Nnet.Layer Nat)) (hn : ls.length ≤ 2147483647)
    (hn' : ls'.length ≤ 2147483647) (h : ∀ l ∈ ls, LayerOk l) (h' : ∀ l ∈ ls', LayerOk l)
    (he : writeNnet left right ls = writeNnet left' right' ls') : left = left' ∧ right = right' ∧ ls = ls' := by
  have h1 := C33_round_trip left right hl hr ls hn h []
  have h2 := C33_round_trip left' right' hl' hr' ls' hn' h' []
  rw [he, h2] at h1
  injection h1 with h1
  injection (Prod.mk.inj h1).1 with e1 e2 e3
  exact ⟨e1.symm, e2.symm, (full_injective e3).symm⟩

example : InI32 1 ∧ InI32 1 ∧ toyNet.length ≤ 2147483647 :=
  ⟨⟨by decide, by decide⟩, ⟨by decide, by decide⟩, by decide⟩

/-- C58: a network file that is cut off anywhere is rejected (although a matrix alone is not, C32: in the file of a
network a matrix is always followed by a vector). -/
theorem C58_truncated_network (left right : Int) (hl : InI32 left) (hr : InI32 right) (ls : List (Nnet.Layer Nat))
    (hn : ls.length ≤ 2147483647) (h : ∀ l ∈ ls, LayerOk l) (t u : List UInt8)
    (hw : writeNnet left right ls = t ++ u) (hu : u ≠ []) : ∃ c, readNnet t = bad c :=
  (readNnet_ok hl hr hn h).2 t u hw hu

/-- The toy network cut off inside its matrix. -/
example : readNnet ((writeNnet 1 1 toyNet).take 90) = bad .io := by decide +kernel

/-- An unknown kind of layer is rejected. -/
theorem C58_unknown_layer (type : Int) (ht : InI32 type) (h : type ∉ ([0, 1, 2, 3, 6, 7, 8, 9] : List Int))
    (rest : List UInt8) : readLayer ([76, 65, 89, 48] ++ (encI32 type ++ rest)) = bad .corruption := by
  unfold readLayer
  rw [show ([76, 65, 89, 48] : List UInt8) = tagLayer from rfl,
    Rd.bind_of (readTag_append (by decide) (by decide)), Rd.bind_of (readI32_append ht _)]
  simp only [List.mem_cons, List.not_mem_nil, or_false, not_or] at h
  obtain ⟨h0, h1, h2, h3, h6, h7, h8, h9⟩ := h
  unfold readBody
  rw [if_neg h0, if_neg h1, if_neg h2, if_neg h3, if_neg h6, if_neg h7, if_neg h8, if_neg h9]
  rfl

example : InI32 4 ∧ (4 : Int) ∉ ([0, 1, 2, 3, 6, 7, 8, 9] : List Int) := ⟨⟨by decide, by decide⟩, by decide⟩

/-! ## C53, vectors -/

/-- C53 fails for vectors: a negative dimension with the size that belongs to it passes the check, and the program
aborts in an assertion instead of returning a status.  (-1 with size 0 is the case of the smallest numbers.) -/
theorem C53_negative_dim_aborts (dim : Int) (h : dim < 0) (hs : -2147483648 ≤ 4 + 4 * dim) (rest : List UInt8) :
    readVec ([86, 69, 67, 48] ++ (encI32 (4 + 4 * dim) ++ (encI32 dim ++ rest))) = .error (.fault .assert) := by
  unfold readVec
  rw [show ([86, 69, 67, 48] : List UInt8) = tagVec from rfl,
    vectorRead_head [] ⟨by omega, by omega⟩ ⟨by omega, by omega⟩]
  unfold readElements resizeMem
  rw [if_neg (by omega), if_neg (by simp)]
  unfold vecInit
  rw [decide_eq_false (by omega)]
  rfl

example : readVec ([86, 69, 67, 48] ++ (encI32 0 ++ (encI32 (-1) ++ []))) = .error (.fault .assert) := by
  decide +kernel

/-- C53 for vectors as far as it holds: whatever the file, reading a vector gives a vector, a status, or that failed
assertion; and the assertion fails only for a negative dimension.

Missing for C53: a status instead of the failed assertion. -/
theorem C53_vector_partial (bs : List UInt8) :
    (∃ v rest, readVec bs = .ok (v, rest)) ∨ (∃ c, readVec bs = bad c) ∨
      (readVec bs = .error (.fault .assert) ∧ 12 ≤ bs.length ∧ decI32 ((bs.drop 8).take 4) < 0) := by
  rcases readVec_cases bs with ⟨v, rest, h⟩ | h | h
  · exact .inl ⟨v, rest, h⟩
  · exact .inr (.inl h)
  · exact .inr (.inr h)

/-- All three happen. -/
example : readVec (writeVec [5]) = .ok ([some 5], []) ∧ readVec [86] = bad .io ∧
    readVec ([86, 69, 67, 48] ++ (encI32 (-4) ++ encI32 (-2))) = .error (.fault .assert) := by
  refine ⟨by decide +kernel, by decide +kernel, by decide +kernel⟩

/-- C53, matrices: negative dimensions, or one dimension zero and not the other, abort in an assertion as well. -/
theorem C53_matrix_dims_abort (size rows cols : Int) (hs : InI32 size) (hr : InI32 rows) (hc : InI32 cols)
    (hp : InI32 (rows * cols)) (h : rows < 0 ∨ cols < 0 ∨ (rows = 0 ∧ cols ≠ 0) ∨ (cols = 0 ∧ rows ≠ 0))
    (rest : List UInt8) :
    readMat ([77, 65, 84, 48] ++ (encI32 size ++ (encI32 rows ++ (encI32 cols ++ rest)))) =
      .error (.fault .assert) := by
  rw [show ([77, 65, 84, 48] : List UInt8) = tagMat from rfl, readMat_head hs hr hc]
  have h1 : matInit rows cols = .error .assert := by
    unfold matInit
    rw [i32_of hp, ok_bind]
    split
    · rename_i h0
      rw [decide_eq_false (by
        rintro ⟨rfl, rfl⟩
        omega)]
      rfl
    · rename_i h0
      rw [decide_eq_false (by
        rintro ⟨h1, h2⟩
        omega)]
      rfl
  rw [h1]

example : InI32 8 ∧ InI32 (-3) ∧ InI32 (-2) ∧ InI32 (-3 * -2) := by
  refine ⟨⟨by decide, by decide⟩, ⟨by decide, by decide⟩, ⟨by decide, by decide⟩, ⟨by decide, by decide⟩⟩

/-- C53, matrices: dimensions whose product exceeds an `int` are undefined behaviour. -/
theorem C53_matrix_product_overflows (size rows cols : Int) (hs : InI32 size) (hr : InI32 rows) (hc : InI32 cols)
    (hp : ¬ InI32 (rows * cols)) (rest : List UInt8) :
    readMat ([77, 65, 84, 48] ++ (encI32 size ++ (encI32 rows ++ (encI32 cols ++ rest)))) =
      .error (.fault .ub) := by
  rw [show ([77, 65, 84, 48] : List UInt8) = tagMat from rfl, readMat_head hs hr hc]
  unfold matInit
  rw [i32_not hp]
  rfl

example : InI32 8 ∧ InI32 65536 ∧ InI32 65536 ∧ ¬ InI32 (65536 * 65536) := by
  refine ⟨⟨by decide, by decide⟩, ⟨by decide, by decide⟩, ⟨by decide, by decide⟩, ?_⟩
  intro h; exact absurd h.2 (by decide)

end Verif.Ser
