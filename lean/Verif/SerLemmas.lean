import Verif.SerSpec

/-!
# Facts about the readers of vectors, matrices and networks
-/

namespace Verif.Ser

open Spec

theorem fread_append {n : Nat} {x rest : List UInt8} (hn : n ≠ 0) (hx : x.length = n) :
    fread n (x ++ rest) = (some x, rest) := by
  subst hx
  unfold fread
  rw [if_neg hn, if_neg (by simp)]
  simp

theorem fread_short {n : Nat} {bs : List UInt8} (h : bs.length < n) : fread n bs = (none, []) := by
  unfold fread
  rw [if_neg (by omega), if_pos h]

theorem resizeMem_ok (old : List (Option UInt8)) {n : Nat} (h : n * 4 ≤ 2147483647) :
    ∃ mem, resizeMem old n = .ok mem ∧ mem.length = 4 * n := by
  unfold resizeMem
  by_cases hc : old ≠ [] ∧ (old.length : Int) = 4 * (n : Int)
  · exact ⟨old, if_pos hc, by omega⟩
  · rw [if_neg hc, vecInit_ok (by omega) (by simpa using (by omega : (n : Int) * 4 ≤ 2147483647)), ok_bind]
    exact ⟨_, rfl, by simp⟩

/-- `Vector::Read` on a file that starts with the tag. -/
theorem vectorRead_tag (old : List (Option UInt8)) (bs : List UInt8) :
    vectorRead old (tagVec ++ bs) = readSized old bs := by
  unfold vectorRead
  rw [fread_append (n := 4) (by decide) rfl]
  simp only
  rw [if_neg (fun h => h ((cstr_eq (by decide) rfl).mpr rfl))]

/-- `Vector::Read` on a file with a complete head. -/
theorem vectorRead_head (old : List (Option UInt8)) {size dim : Int} (hs : InI32 size) (hd : InI32 dim)
    (bs : List UInt8) :
    vectorRead old (tagVec ++ (encI32 size ++ (encI32 dim ++ bs))) = readElements old size dim bs := by
  rw [vectorRead_tag]
  unfold readSized
  rw [fread_append (by decide) (encI32_length _)]
  simp only
  rw [fread_append (by decide) (encI32_length _)]
  simp only
  rw [dec_encI32 hs, dec_encI32 hd]

/-- The whole vector is there. -/
theorem readElements_full (old : List (Option UInt8)) {n : Nat} (h0 : n ≠ 0) (h : n * 4 + 4 ≤ 2147483647)
    {x : List UInt8} (hx : x.length = 4 * n) (rest : List UInt8) :
    readElements old (n * 4 + 4) n (x ++ rest) = .ok ⟨none, x.map some, rest⟩ := by
  obtain ⟨mem, hm, _⟩ := resizeMem_ok old (n := n) (by omega)
  unfold readElements
  rw [if_neg (by omega), hm, ok_bind, Int.toNat_natCast, fread_append (by omega) hx]

/-- Not the whole vector is there. -/
theorem readElements_short (old : List (Option UInt8)) {n : Nat} (h0 : n ≠ 0) (h : n * 4 + 4 ≤ 2147483647)
    {x : List UInt8} (hx : x.length < 4 * n) :
    ∃ mem, readElements old (n * 4 + 4) n x = .ok ⟨some .io, mem, []⟩ ∧ mem.length = 4 * n := by
  obtain ⟨mem, hm, hl⟩ := resizeMem_ok old (n := n) (by omega)
  unfold readElements
  rw [if_neg (by omega), hm, ok_bind, Int.toNat_natCast, fread_short hx]
  simp only
  rw [if_neg (by omega)]
  exact ⟨_, rfl, by simp; omega⟩

theorem vecLen {v : List Nat} (h : VecOk v) : v.length ≠ 0 := by
  intro h0; exact h.1 (List.length_eq_zero_iff.mp h0)

/-- The marks of the writers are those of the readers. -/
theorem writeVec_eq (v : List Nat) :
    writeVec v = tagVec ++ (encI32 (v.length * 4 + 4) ++ (encI32 v.length ++ v.flatMap encU32)) := rfl

theorem writeMat_eq (m : List (List Nat)) :
    writeMat m = tagMat ++ (encI32 8 ++ (encI32 m.length ++ (encI32 (Nnet.numCols m) ++ m.flatMap writeVec))) := rfl

theorem writeNnet_eq (left right : Int) (ls : List (Nnet.Layer Nat)) :
    writeNnet left right ls =
      tagNnet ++ (encI32 left ++ (encI32 right ++ (encI32 ls.length ++ ls.flatMap writeLayer))) := rfl

theorem vectorRead_write (old : List (Option UInt8)) {v : List Nat} (h : VecOk v) (rest : List UInt8) :
    vectorRead old (writeVec v ++ rest) = .ok ⟨none, (v.flatMap encU32).map some, rest⟩ := by
  rw [writeVec_eq]
  simp only [List.append_assoc]
  have h2 := h.2.1
  rw [vectorRead_head old ⟨by omega, by omega⟩ ⟨by omega, by omega⟩,
    readElements_full old (vecLen h) h2 (flatMap_encU32_length v)]

theorem elements_cons (n : Nat) (m : List (Option UInt8)) :
    elements ((encU32 n).map some ++ m) = some (decU32 (encU32 n)) :: elements m := rfl

theorem elements_write : ∀ (v : List Nat), (∀ x ∈ v, x < 4294967296) →
    elements ((v.flatMap encU32).map some) = v.map some
  | [], _ => rfl
  | n :: v, h => by
    rw [List.flatMap_cons, List.map_append, elements_cons, elements_write v (fun x hx => h x (by simp [hx])),
      dec_encU32 (h n (by simp))]
    rfl

/-- Every way of cutting off a file written as `a ++ b`. -/
theorem cut_append {α : Type} {a b t u : List α} (h : a ++ b = t ++ u) :
    (∃ a', a' ≠ [] ∧ a = t ++ a') ∨ ∃ t', t = a ++ t' ∧ b = t' ++ u := by
  rcases List.append_eq_append_iff.mp h with ⟨a', h1, h2⟩ | ⟨c, h1, h2⟩
  · exact .inr ⟨a', h1, h2⟩
  · by_cases hc : c = []
    · subst hc
      exact .inr ⟨[], by simpa using h1.symm, by simpa using h2.symm⟩
    · exact .inl ⟨c, hc, h1⟩

theorem cut_length {α : Type} {a t u : List α} (h : a = t ++ u) (hu : u ≠ []) : t.length < a.length := by
  have := List.length_pos_iff.mpr hu
  rw [h, List.length_append]; omega

/-- A written vector that is cut off: the read fails, the file is used up, and the vector has the old size if the
head is not complete, the new size otherwise. -/
theorem vectorRead_cut (old : List (Option UInt8)) {v : List Nat} (h : VecOk v) {t u : List UInt8}
    (hw : writeVec v = t ++ u) (hu : u ≠ []) :
    ∃ mem, vectorRead old t = .ok ⟨some .io, mem, []⟩ ∧
      (t.length < 12 → mem = old) ∧ (12 ≤ t.length → mem.length = 4 * v.length) := by
  rw [writeVec_eq] at hw
  have hb := h.2.1
  rcases cut_append hw with ⟨a', ha, h1⟩ | ⟨t1, rfl, hw1⟩
  · have hl := cut_length h1 ha
    refine ⟨old, ?_, fun _ => rfl, fun h => absurd hl (by simp [tagVec]; omega)⟩
    unfold vectorRead
    rw [fread_short (by simpa [tagVec] using hl)]
  · rw [vectorRead_tag]
    unfold readSized
    rcases cut_append hw1 with ⟨a', ha, h1⟩ | ⟨t2, rfl, hw2⟩
    · have hl := cut_length h1 ha
      rw [encI32_length] at hl
      refine ⟨old, ?_, fun _ => rfl, fun h => absurd h (by simp [tagVec]; omega)⟩
      rw [fread_short hl]
    · rw [fread_append (by decide) (encI32_length _)]
      simp only
      rcases cut_append hw2 with ⟨a', ha, h1⟩ | ⟨t3, rfl, hw3⟩
      · have hl := cut_length h1 ha
        rw [encI32_length] at hl
        refine ⟨old, ?_, fun _ => rfl, fun h => absurd h (by simp [tagVec, encI32_length]; omega)⟩
        rw [fread_short hl]
      · rw [fread_append (by decide) (encI32_length _)]
        simp only
        rw [dec_encI32 ⟨by omega, by omega⟩, dec_encI32 ⟨by omega, by omega⟩]
        have hl := cut_length hw3 hu
        rw [flatMap_encU32_length] at hl
        obtain ⟨mem, h1, h2⟩ := readElements_short old (vecLen h) hb hl
        exact ⟨mem, h1, fun h => absurd h (by simp [tagVec, encI32_length]; omega), fun _ => h2⟩

/-! ## Readers and what they read -/

/-- `p` reads `a` from `s`, whatever follows. -/
def Reads {α : Type} (p : Rd α) (s : List UInt8) (a : α) : Prop := ∀ rest, p (s ++ rest) = .ok (a, rest)

/-- `p` rejects `s` cut off anywhere. -/
def Cut {α : Type} (p : Rd α) (s : List UInt8) : Prop :=
  ∀ t u, s = t ++ u → u ≠ [] → ∃ c, p t = bad c

/-- `p` rejects `s` cut off, or takes all of it. -/
def Weak {α : Type} (p : Rd α) (s : List UInt8) : Prop :=
  ∀ t u, s = t ++ u → u ≠ [] → (∃ c, p t = bad c) ∨ ∃ a, p t = .ok (a, [])

theorem Reads.pure {α : Type} (a : α) : Reads (pure a : Rd α) [] a := fun _ => rfl

theorem Reads.bind {α β : Type} {p : Rd α} {q : α → Rd β} {s s' : List UInt8} {a : α} {b : β}
    (h1 : Reads p s a) (h2 : Reads (q a) s' b) : Reads (p >>= q) (s ++ s') b := by
  intro rest
  rw [List.append_assoc, Rd.bind_of (h1 _)]
  exact h2 rest

theorem Reads.i32 {x : Int} (h : InI32 x) : Reads readI32 (encI32 x) x := fun rest => readI32_append h rest

theorem Reads.tag {t : List UInt8} (h0 : (0 : UInt8) ∉ t) (hn : t ≠ []) : Reads (readTag t) t () :=
  fun _ => readTag_append h0 hn

theorem Cut.nil {α : Type} (p : Rd α) : Cut p [] := by
  intro t u h hu
  exact absurd (List.append_eq_nil_iff.mp h.symm).2 hu

theorem Cut.bind {α β : Type} {p : Rd α} {q : α → Rd β} {s s' : List UInt8} {a : α}
    (h : Reads p s a) (h1 : Cut p s) (h2 : Cut (q a) s') : Cut (p >>= q) (s ++ s') := by
  intro t u hs hu
  rcases cut_append hs with ⟨a', ha, h3⟩ | ⟨t', rfl, h3⟩
  · obtain ⟨c, hc⟩ := h1 t a' h3 ha
    exact ⟨c, Rd.bind_error hc⟩
  · obtain ⟨c, hc⟩ := h2 t' u h3 hu
    exact ⟨c, by rw [Rd.bind_of (h t')]; exact hc⟩

/-- A part that may be taken although it is cut off, followed by one that needs at least a byte. -/
theorem Cut.bind_weak {α β : Type} {p : Rd α} {q : α → Rd β} {s s' : List UInt8} {a : α}
    (h : Reads p s a) (h1 : Weak p s) (h0 : ∀ b, ∃ c, q b [] = bad c) (h2 : Cut (q a) s') :
    Cut (p >>= q) (s ++ s') := by
  intro t u hs hu
  rcases cut_append hs with ⟨a', ha, h3⟩ | ⟨t', rfl, h3⟩
  · rcases h1 t a' h3 ha with ⟨c, hc⟩ | ⟨b, hb⟩
    · exact ⟨c, Rd.bind_error hc⟩
    · obtain ⟨c, hc⟩ := h0 b
      exact ⟨c, by rw [Rd.bind_of hb]; exact hc⟩
  · obtain ⟨c, hc⟩ := h2 t' u h3 hu
    exact ⟨c, by rw [Rd.bind_of (h t')]; exact hc⟩

theorem Cut.i32 (x : Int) : Cut readI32 (encI32 x) := by
  intro t u h hu
  have := cut_length h hu
  exact ⟨.io, readI32_short this⟩

theorem Cut.tag (s : List UInt8) : Cut (readTag s) s := by
  intro t u h hu
  have := cut_length h hu
  exact ⟨.io, Rd.bind_error (readBytes_short this)⟩

/-! ## Vectors -/

theorem readVec_reads {v : List Nat} (h : VecOk v) : Reads readVec (writeVec v) (v.map some) := by
  intro rest
  unfold readVec
  rw [vectorRead_write [] h]
  simp only
  rw [elements_write v h.2.2]

theorem readVec_cut {v : List Nat} (h : VecOk v) : Cut readVec (writeVec v) := by
  intro t u hw hu
  obtain ⟨mem, hm, _⟩ := vectorRead_cut [] h hw hu
  refine ⟨.io, ?_⟩
  unfold readVec
  rw [hm]

theorem readVec_nil : readVec [] = bad .io := rfl

/-- All outcomes of reading a vector. -/
theorem readVec_cases (bs : List UInt8) :
    (∃ v rest, readVec bs = .ok (v, rest)) ∨ (∃ c, readVec bs = bad c) ∨
      (readVec bs = .error (.fault .assert) ∧ 12 ≤ bs.length ∧ decI32 ((bs.drop 8).take 4) < 0) := by
  have key : (∃ r, vectorRead [] bs = .ok r) ∨
      (vectorRead [] bs = .error .assert ∧ 12 ≤ bs.length ∧ decI32 ((bs.drop 8).take 4) < 0) := by
    have hf : ∀ xs : List UInt8, fread 4 xs = (none, []) ∨
        (fread 4 xs = (some (xs.take 4), xs.drop 4) ∧ 4 ≤ xs.length) := by
      intro xs
      unfold fread
      by_cases h : xs.length < 4
      · exact .inl (by rw [if_neg (by decide), if_pos h])
      · exact .inr ⟨by rw [if_neg (by decide), if_neg h], by omega⟩
    unfold vectorRead
    rcases hf bs with h1 | ⟨h1, l1⟩
    · rw [h1]; exact .inl ⟨_, rfl⟩
    rw [h1]
    simp only
    by_cases ht : cstr (bs.take 4) ≠ tagVec
    · rw [if_pos ht]; exact .inl ⟨_, rfl⟩
    rw [if_neg ht]
    unfold readSized
    rcases hf (bs.drop 4) with h2 | ⟨h2, l2⟩
    · rw [h2]; exact .inl ⟨_, rfl⟩
    rw [h2]
    simp only
    rcases hf ((bs.drop 4).drop 4) with h3 | ⟨h3, l3⟩
    · rw [h3]; exact .inl ⟨_, rfl⟩
    rw [h3]
    simp only
    rw [List.drop_drop] at l3
    have e8 : (bs.drop 4).drop 4 = bs.drop 8 := by rw [List.drop_drop]
    rw [e8]
    rw [List.length_drop] at l3
    have hi := decI32_in ((bs.drop 8).take 4)
    have hs := decI32_in ((bs.drop 4).take 4)
    generalize hd : decI32 ((bs.drop 8).take 4) = dim at hi ⊢
    generalize decI32 ((bs.drop 4).take 4) = size at hs ⊢
    unfold readElements
    by_cases hc : dim * 4 + 4 ≠ size
    · rw [if_pos hc]; exact .inl ⟨_, rfl⟩
    rw [if_neg hc]
    have hs2 := hs.2
    by_cases h0 : 0 ≤ dim
    · obtain ⟨n, rfl⟩ := Int.eq_ofNat_of_zero_le h0
      obtain ⟨mem, hm, _⟩ := resizeMem_ok [] (n := n) (by omega)
      rw [hm, ok_bind]
      left
      split
      · exact ⟨_, rfl⟩
      · split <;> exact ⟨_, rfl⟩
    · right
      unfold resizeMem
      rw [if_neg (by simp)]
      unfold vecInit
      rw [decide_eq_false h0]
      exact ⟨rfl, by omega, by omega⟩
  unfold readVec
  rcases key with ⟨r, h⟩ | ⟨h, h1, h2⟩
  · rw [h]
    simp only
    cases hr : r.status with
    | some c => exact .inr (.inl ⟨c, rfl⟩)
    | none => exact .inl ⟨_, _, rfl⟩
  · rw [h]; exact .inr (.inr ⟨rfl, h1, h2⟩)

/-! ## Matrices -/

theorem readRows_reads (cols : Nat) : ∀ (m : List (List Nat)), (∀ r ∈ m, r.length = cols ∧ VecOk r) →
    ∀ (mem : List (Option UInt8)) (rest : List UInt8),
    readRows cols m.length mem (m.flatMap writeVec ++ rest) = .ok (m.map (·.map some), rest)
  | [], _, _, _ => rfl
  | r :: m, h, mem, rest => by
    have hr := h r (by simp)
    rw [List.flatMap_cons, List.append_assoc, List.length_cons, readRows, vectorRead_write mem hr.2]
    simp only
    rw [if_neg (by rw [List.length_map, flatMap_encU32_length, hr.1]; simp),
      readRows_reads cols m (fun r hr => h r (by simp [hr]))]
    simp only
    rw [elements_write r hr.2.2.2]
    rfl

/-- At the end of the file every further row is a copy of the last one. -/
theorem readRows_nil (cols : Nat) {mem : List (Option UInt8)} (hm : mem.length = 4 * cols) : ∀ n,
    readRows cols n mem [] = .ok (List.replicate n (elements mem), [])
  | 0 => rfl
  | n + 1 => by
    have h1 : vectorRead mem [] = .ok ⟨some .io, mem, []⟩ := rfl
    rw [readRows, h1]
    simp only
    rw [if_neg (by simp [hm]), readRows_nil cols hm n]
    rfl

/-- Behind complete rows every further row is a copy of the last one. -/
theorem readRows_copies (cols : Nat) : ∀ (m : List (List Nat)) (r : List Nat) (m' : List (List Nat)),
    (∀ x ∈ m ++ r :: m', x.length = cols ∧ VecOk x) → ∀ (mem : List (Option UInt8)),
    readRows cols (m ++ r :: m').length mem ((m ++ [r]).flatMap writeVec) =
      .ok ((m ++ [r]).map (·.map some) ++ List.replicate m'.length (r.map some), [])
  | [], r, m', h, mem => by
    have hr := h r (by simp)
    have hl : ((r.flatMap encU32).map some).length = 4 * cols := by
      rw [List.length_map, flatMap_encU32_length, hr.1]
    have h1 := vectorRead_write mem hr.2 []
    rw [List.append_nil] at h1
    simp only [List.nil_append, List.length_cons, List.flatMap_cons, List.flatMap_nil, List.append_nil]
    rw [readRows, h1]
    simp only
    rw [if_neg (by simp only [hl]; simp), readRows_nil cols hl]
    simp only
    rw [elements_write r hr.2.2.2]
    rfl
  | q :: m, r, m', h, mem => by
    have hr := h q (by simp)
    have hl : ((q.flatMap encU32).map some).length = 4 * cols := by
      rw [List.length_map, flatMap_encU32_length, hr.1]
    simp only [List.cons_append, List.length_cons, List.flatMap_cons]
    rw [readRows, vectorRead_write mem hr.2]
    simp only
    rw [if_neg (by simp only [hl]; simp), readRows_copies cols m r m' (fun x hx => h x (by
      rw [List.cons_append]; exact List.mem_cons_of_mem _ hx))]
    simp only
    rw [elements_write q hr.2.2.2]
    rfl

/-- Once a row of the right size is in `row_read`, rows that are cut off are accepted. -/
theorem readRows_cut (cols : Nat) : ∀ (m : List (List Nat)), (∀ r ∈ m, r.length = cols ∧ VecOk r) →
    ∀ (mem : List (Option UInt8)), mem.length = 4 * cols → ∀ t u, m.flatMap writeVec = t ++ u → u ≠ [] →
    ∃ rows, readRows cols m.length mem t = .ok (rows, [])
  | [], _, _, _, t, u, h, hu => absurd (List.append_eq_nil_iff.mp h.symm).2 hu
  | r :: m, h, mem, hm, t, u, hw, hu => by
    have hr := h r (by simp)
    rw [List.flatMap_cons] at hw
    rcases cut_append hw with ⟨a', ha, h1⟩ | ⟨t', rfl, h1⟩
    · obtain ⟨mem', h2, h3, h4⟩ := vectorRead_cut mem hr.2 h1 ha
      have hl : mem'.length = 4 * cols := by
        by_cases hc : t.length < 12
        · rw [h3 hc]; exact hm
        · rw [h4 (by omega), hr.1]
      rw [List.length_cons, readRows, h2]
      simp only
      rw [if_neg (by simp [hl]), readRows_nil cols hl]
      exact ⟨_, rfl⟩
    · rw [List.length_cons, readRows, vectorRead_write mem hr.2]
      simp only
      have hl : ((r.flatMap encU32).map some).length = 4 * cols := by
        rw [List.length_map, flatMap_encU32_length, hr.1]
      rw [if_neg (by simp only [hl]; simp)]
      obtain ⟨rows, h2⟩ := readRows_cut cols m (fun r hr => h r (by simp [hr])) _ hl t' u h1 hu
      rw [h2]
      exact ⟨_, rfl⟩

/-- The first row is accepted as soon as its head is complete. -/
theorem readRows_first (cols : Nat) {r : List Nat} {m : List (List Nat)}
    (h : ∀ x ∈ r :: m, x.length = cols ∧ VecOk x) {t u : List UInt8}
    (hw : (r :: m).flatMap writeVec = t ++ u) (hu : u ≠ []) :
    (t.length < 12 → readRows cols (r :: m).length [] t = bad .corruption) ∧
    (12 ≤ t.length → ∃ rows, readRows cols (r :: m).length [] t = .ok (rows, [])) := by
  have hr := h r (by simp)
  have h0 := vecLen hr.2
  rw [List.flatMap_cons] at hw
  rcases cut_append hw with ⟨a', ha, h1⟩ | ⟨t', rfl, h1⟩
  · obtain ⟨mem, h2, h3, h4⟩ := vectorRead_cut [] hr.2 h1 ha
    rw [List.length_cons, readRows, h2]
    simp only
    refine ⟨fun hc => ?_, fun hc => ?_⟩
    · rw [h3 hc, if_pos]
      rw [← hr.1]
      show 0 ≠ _
      omega
    · have hl : mem.length = 4 * cols := by rw [h4 hc, hr.1]
      rw [if_neg (by simp [hl]), readRows_nil cols hl]
      exact ⟨_, rfl⟩
  · have hlen : 12 ≤ (writeVec r ++ t').length := by
      simp only [writeVec, List.length_append, encI32_length, List.length_cons, List.length_nil]
      omega
    refine ⟨fun hc => absurd hlen (by omega), fun _ => ?_⟩
    rw [List.length_cons, readRows, vectorRead_write [] hr.2]
    simp only
    have hl : ((r.flatMap encU32).map some).length = 4 * cols := by
      rw [List.length_map, flatMap_encU32_length, hr.1]
    rw [if_neg (by simp only [hl]; simp)]
    obtain ⟨rows, h2⟩ := readRows_cut cols m (fun r hr => h r (by simp [hr])) _ hl t' u h1 hu
    rw [h2]
    exact ⟨_, rfl⟩

theorem numCols_cons {m : List (List Nat)} {cols : Nat} (h : MatOk m cols) : Nnet.numCols m = cols := by
  obtain ⟨h0, h1, _⟩ := h
  cases m with
  | nil => exact absurd rfl h0
  | cons r m => exact_mod_cast (h1 r (by simp)).1

theorem matDims {m : List (List Nat)} {cols : Nat} (h : MatOk m cols) :
    0 < m.length ∧ 0 < cols ∧ InI32 m.length ∧ InI32 cols ∧ matInit m.length cols = .ok () := by
  obtain ⟨h0, h1, h2⟩ := h
  have hl : 0 < m.length := List.length_pos_iff.mpr h0
  have hc : 0 < cols := by
    cases m with
    | nil => exact absurd rfl h0
    | cons r m =>
      have := h1 r (by simp)
      have := vecLen this.2
      omega
  have h3 : m.length ≤ m.length * cols := Nat.le_mul_of_pos_right _ hc
  have h4 : cols ≤ m.length * cols := Nat.le_mul_of_pos_left _ hl
  have h5 : ((m.length * cols : Nat) : Int) = (m.length : Int) * cols := Int.natCast_mul _ _
  exact ⟨hl, hc, ⟨by omega, by omega⟩, ⟨by omega, by omega⟩, matInit_ok (by omega) (by omega) h2⟩

/-- `readMat` behind the tag and the three numbers. -/
theorem readMat_head {rows cols size : Int} (hs : InI32 size) (hr : InI32 rows) (hc : InI32 cols)
    (bs : List UInt8) :
    readMat (tagMat ++ (encI32 size ++ (encI32 rows ++ (encI32 cols ++ bs)))) =
      match matInit rows cols with
      | .error f => .error (.fault f)
      | .ok () => readRows cols.toNat rows.toNat [] bs := by
  unfold readMat
  rw [Rd.bind_of (readTag_append (by decide) (by decide)), Rd.bind_of (readI32_append hs _),
    Rd.bind_of (readI32_append hr _), Rd.bind_of (readI32_append hc _)]
  rfl

theorem readMat_reads {m : List (List Nat)} {cols : Nat} (h : MatOk m cols) :
    Reads readMat (writeMat m) (m.map (·.map some)) := by
  intro rest
  obtain ⟨_, _, h1, h2, h3⟩ := matDims h
  rw [writeMat_eq]
  simp only [List.append_assoc]
  rw [numCols_cons h, readMat_head ⟨by decide, by decide⟩ h1 h2, h3]
  simp only [Int.toNat_natCast]
  exact readRows_reads cols m h.2.1 [] rest

/-- Exactly when a matrix that is cut off is rejected. -/
theorem readMat_cut {m : List (List Nat)} {cols : Nat} (h : MatOk m cols) {t u : List UInt8}
    (hw : writeMat m = t ++ u) (hu : u ≠ []) :
    (t.length < 28 → ∃ c, readMat t = bad c) ∧ (28 ≤ t.length → ∃ rows, readMat t = .ok (rows, [])) := by
  obtain ⟨_, _, h1, h2, h3⟩ := matDims h
  rw [writeMat_eq] at hw
  rw [numCols_cons h] at hw
  have e4 : tagMat.length = 4 := rfl
  rcases cut_append hw with ⟨a', ha, h4⟩ | ⟨t1, rfl, hw1⟩
  · have hl := cut_length h4 ha
    obtain ⟨c, hc⟩ := Cut.tag tagMat t a' h4 ha
    exact ⟨fun _ => ⟨c, Rd.bind_error hc⟩, fun h => absurd h (by omega)⟩
  have g1 := Reads.tag (t := tagMat) (by decide) (by decide)
  rcases cut_append hw1 with ⟨a', ha, h4⟩ | ⟨t2, rfl, hw2⟩
  · have hl := cut_length h4 ha
    obtain ⟨c, hc⟩ := Cut.i32 8 t1 a' h4 ha
    refine ⟨fun _ => ⟨c, ?_⟩, fun h => absurd h (by rw [List.length_append]; simp [encI32_length] at hl; omega)⟩
    unfold readMat
    rw [Rd.bind_of (g1 _)]
    exact Rd.bind_error hc
  have g2 := Reads.i32 (x := 8) ⟨by decide, by decide⟩
  rcases cut_append hw2 with ⟨a', ha, h4⟩ | ⟨t3, rfl, hw3⟩
  · have hl := cut_length h4 ha
    obtain ⟨c, hc⟩ := Cut.i32 m.length t2 a' h4 ha
    refine ⟨fun _ => ⟨c, ?_⟩, fun h => absurd h (by simp [encI32_length] at hl ⊢; omega)⟩
    unfold readMat
    rw [Rd.bind_of (g1 _), Rd.bind_of (g2 _)]
    exact Rd.bind_error hc
  rcases cut_append hw3 with ⟨a', ha, h4⟩ | ⟨t4, rfl, hw4⟩
  · have hl := cut_length h4 ha
    obtain ⟨c, hc⟩ := Cut.i32 cols t3 a' h4 ha
    refine ⟨fun _ => ⟨c, ?_⟩, fun h => absurd h (by simp [encI32_length] at hl ⊢; omega)⟩
    unfold readMat
    rw [Rd.bind_of (g1 _), Rd.bind_of (g2 _), Rd.bind_of (Reads.i32 h1 _)]
    exact Rd.bind_error hc
  rw [readMat_head ⟨by decide, by decide⟩ h1 h2, h3]
  simp only [Int.toNat_natCast]
  have e : (tagMat ++ (encI32 8 ++ (encI32 m.length ++ (encI32 cols ++ t4)))).length = 16 + t4.length := by
    simp only [List.length_append, encI32_length, e4]; omega
  rw [e]
  obtain ⟨h0, hr, _⟩ := h
  cases m with
  | nil => exact absurd rfl h0
  | cons r m =>
    obtain ⟨k1, k2⟩ := readRows_first cols hr hw4 hu
    exact ⟨fun h => ⟨.corruption, k1 (by omega)⟩, fun h => k2 (by omega)⟩

theorem readMat_weak {m : List (List Nat)} {cols : Nat} (h : MatOk m cols) : Weak readMat (writeMat m) := by
  intro t u hw hu
  obtain ⟨h1, h2⟩ := readMat_cut h hw hu
  by_cases hc : t.length < 28
  · exact .inl (h1 hc)
  · exact .inr (h2 (by omega))

/-! ## Layers -/

open Nnet (Layer)

theorem readIndices_reads : ∀ (is : List Int), (∀ i ∈ is, InI32 i) →
    Reads (readIndices is.length) (is.flatMap encI32) is ∧ Cut (readIndices is.length) (is.flatMap encI32)
  | [], _ => ⟨Reads.pure _, Cut.nil _⟩
  | i :: is, h => by
    obtain ⟨h1, h2⟩ := readIndices_reads is (fun j hj => h j (by simp [hj]))
    have hi := h i (by simp)
    rw [List.flatMap_cons, List.length_cons, readIndices]
    rw [← List.append_nil (is.flatMap encI32)]
    exact ⟨(Reads.i32 hi).bind (h1.bind (Reads.pure _)),
      (Cut.i32 i).bind (Reads.i32 hi) (Cut.bind h1 h2 (Cut.nil _))⟩

theorem some_injective {α : Type} : ∀ {a b : List α}, a.map some = b.map some → a = b := by
  intro a b h
  exact (List.map_inj_right (fun x y h => Option.some.inj h)).mp h

theorem full_injective : ∀ {ls ls' : List (Layer Nat)}, ls.map full = ls'.map full → ls = ls' := by
  intro a b h
  refine (List.map_inj_right ?_).mp h
  intro x y h
  cases x <;> cases y <;> simp only [full, reduceCtorEq] at h <;> try rfl
  · injection h with h1 h2
    rw [some_injective h2, (List.map_inj_right (fun x y h => some_injective h)).mp h1]
  · injection h with h1; rw [h1]
  · injection h with h1 h2
    rw [some_injective h1, some_injective h2]
  · injection h with h1 h2
    rw [h1, h2]

theorem readLinear_ok {W : List (List Nat)} {b : List Nat} {cols : Nat} (hW : MatOk W cols) (hb : VecOk b) :
    Reads readLinear (writeMat W ++ writeVec b) (full (.linear W b)) ∧
      Cut readLinear (writeMat W ++ writeVec b) := by
  unfold readLinear
  rw [← List.append_nil (writeVec b)]
  refine ⟨(readMat_reads hW).bind ((readVec_reads hb).bind (Reads.pure _)), ?_⟩
  exact Cut.bind_weak (readMat_reads hW) (readMat_weak hW) (fun _ => ⟨.io, Rd.bind_error readVec_nil⟩)
    (Cut.bind (readVec_reads hb) (readVec_cut hb) (Cut.nil _))

theorem readSplice_ok {idx : List Int} (h1 : idx.length ≤ 2147483647) (h2 : ∀ i ∈ idx, InI32 i) :
    Reads readSplice (encI32 idx.length ++ idx.flatMap encI32) (full (.splice idx)) ∧
      Cut readSplice (encI32 idx.length ++ idx.flatMap encI32) := by
  unfold readSplice
  have hn : InI32 (idx.length : Int) := ⟨by omega, by omega⟩
  obtain ⟨k1, k2⟩ := readIndices_reads idx h2
  have e : ¬ ((idx.length : Int) < 0) := by omega
  have k3 : Reads (do let is ← readIndices idx.length; pure (Layer.splice is) : Rd (Layer Word))
      (idx.flatMap encI32 ++ []) (full (.splice idx)) := k1.bind (Reads.pure _)
  have k4 : Cut (do let is ← readIndices idx.length; pure (Layer.splice is) : Rd (Layer Word))
      (idx.flatMap encI32 ++ []) := Cut.bind k1 k2 (Cut.nil _)
  rw [List.append_nil] at k3 k4
  refine ⟨(Reads.i32 hn).bind ?_, (Cut.bind (Reads.i32 hn) (Cut.i32 _)) ?_⟩
  · rw [if_neg e, Int.toNat_natCast]; exact k3
  · rw [if_neg e, Int.toNat_natCast]; exact k4

theorem readBatchNorm_ok {s t : List Nat} (hs : VecOk s) (ht : VecOk t) :
    Reads readBatchNorm (writeVec s ++ writeVec t) (full (.batchNorm s t)) ∧
      Cut readBatchNorm (writeVec s ++ writeVec t) := by
  unfold readBatchNorm
  rw [← List.append_nil (writeVec t)]
  exact ⟨(readVec_reads hs).bind ((readVec_reads ht).bind (Reads.pure _)),
    Cut.bind (readVec_reads hs) (readVec_cut hs) (Cut.bind (readVec_reads ht) (readVec_cut ht) (Cut.nil _))⟩

theorem readNarrow_ok {l r : Int} (hl : InI32 l) (hr : InI32 r) :
    Reads readNarrow (encI32 l ++ encI32 r) (full (.narrow l r)) ∧ Cut readNarrow (encI32 l ++ encI32 r) := by
  unfold readNarrow
  rw [← List.append_nil (encI32 r)]
  exact ⟨(Reads.i32 hl).bind ((Reads.i32 hr).bind (Reads.pure _)),
    Cut.bind (Reads.i32 hl) (Cut.i32 l) (Cut.bind (Reads.i32 hr) (Cut.i32 r) (Cut.nil _))⟩

/-- A layer from its body. -/
theorem readLayer_of {type : Int} (ht : InI32 type) {body : List UInt8} {x : Layer Word}
    (h : Reads (readBody type) body x ∧ Cut (readBody type) body) :
    Reads readLayer (tagLayer ++ (encI32 type ++ body)) x ∧ Cut readLayer (tagLayer ++ (encI32 type ++ body)) := by
  unfold readLayer
  have h1 := Reads.tag (t := tagLayer) (by decide) (by decide)
  exact ⟨h1.bind ((Reads.i32 ht).bind h.1),
    Cut.bind h1 (Cut.tag _) (Cut.bind (Reads.i32 ht) (Cut.i32 _) h.2)⟩

theorem readLayer_of_nil {type : Int} (ht : InI32 type) {x : Layer Word} (h : readBody type = pure x) :
    Reads readLayer (tagLayer ++ encI32 type) x ∧ Cut readLayer (tagLayer ++ encI32 type) := by
  have := readLayer_of ht (body := []) (x := x) (by rw [h]; exact ⟨Reads.pure _, Cut.nil _⟩)
  rwa [List.append_nil] at this

theorem readLayer_ok {l : Layer Nat} (h : LayerOk l) :
    Reads readLayer (writeLayer l) (full l) ∧ Cut readLayer (writeLayer l) := by
  have h32 : ∀ n : Nat, n ≤ 9 → InI32 (n : Int) := fun n hn => ⟨by omega, by omega⟩
  cases l with
  | linear W b =>
    obtain ⟨⟨cols, hW⟩, hb⟩ := h
    exact readLayer_of (h32 0 (by decide)) (readLinear_ok hW hb)
  | relu => exact readLayer_of_nil (h32 1 (by decide)) rfl
  | normalize => exact readLayer_of_nil (h32 2 (by decide)) rfl
  | softmax => exact readLayer_of_nil (h32 3 (by decide)) rfl
  | splice idx => exact readLayer_of (h32 6 (by decide)) (readSplice_ok h.1 h.2)
  | batchNorm s t => exact readLayer_of (h32 7 (by decide)) (readBatchNorm_ok h.1 h.2)
  | logSoftmax => exact readLayer_of_nil (h32 8 (by decide)) rfl
  | narrow l r => exact readLayer_of (h32 9 (by decide)) (readNarrow_ok h.1 h.2)

theorem readLayers_ok : ∀ (ls : List (Layer Nat)), (∀ l ∈ ls, LayerOk l) →
    Reads (readLayers ls.length) (ls.flatMap writeLayer) (ls.map full) ∧
      Cut (readLayers ls.length) (ls.flatMap writeLayer)
  | [], _ => ⟨Reads.pure _, Cut.nil _⟩
  | l :: ls, h => by
    obtain ⟨h1, h2⟩ := readLayers_ok ls (fun j hj => h j (by simp [hj]))
    obtain ⟨h3, h4⟩ := readLayer_ok (h l (by simp))
    rw [List.flatMap_cons, List.length_cons, readLayers]
    rw [← List.append_nil (ls.flatMap writeLayer)]
    exact ⟨h3.bind (h1.bind (Reads.pure _)), Cut.bind h3 h4 (Cut.bind h1 h2 (Cut.nil _))⟩

theorem readNnet_ok {left right : Int} (hl : InI32 left) (hr : InI32 right) {ls : List (Layer Nat)}
    (hn : ls.length ≤ 2147483647) (h : ∀ l ∈ ls, LayerOk l) :
    Reads readNnet (writeNnet left right ls) ⟨left, right, ls.map full⟩ ∧
      Cut readNnet (writeNnet left right ls) := by
  rw [writeNnet_eq]
  unfold readNnet
  have h1 := Reads.tag (t := tagNnet) (by decide) (by decide)
  have h2 : InI32 (ls.length : Int) := ⟨by omega, by omega⟩
  obtain ⟨h3, h4⟩ := readLayers_ok ls h
  rw [← List.append_nil (ls.flatMap writeLayer)]
  refine ⟨h1.bind ((Reads.i32 hl).bind ((Reads.i32 hr).bind ((Reads.i32 h2).bind ?_))),
    Cut.bind h1 (Cut.tag _) (Cut.bind (Reads.i32 hl) (Cut.i32 _) (Cut.bind (Reads.i32 hr) (Cut.i32 _)
      (Cut.bind (Reads.i32 h2) (Cut.i32 _) ?_)))⟩
  · rw [Int.toNat_natCast]
    exact h3.bind (Reads.pure _)
  · rw [Int.toNat_natCast]
    exact Cut.bind h3 h4 (Cut.nil _)

end Verif.Ser
