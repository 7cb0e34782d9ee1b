import Verif.FstLemmas

/-! # Lemmas about the FST file format -/

namespace Verif.Fst

open Verif

theorem encArc_length (a : Arc UInt32) : (encArc a).length = 16 := rfl

theorem flatMap_encI32_length (xs : List Int) : (xs.flatMap encI32).length = 4 * xs.length := by
  induction xs with
  | nil => rfl
  | cons n ns ih =>
    simp only [List.flatMap_cons, List.length_append, encI32_length, List.length_cons]; omega

theorem flatMap_encArc_length (xs : List (Arc UInt32)) : (xs.flatMap encArc).length = 16 * xs.length := by
  induction xs with
  | nil => rfl
  | cons n ns ih =>
    simp only [List.flatMap_cons, List.length_append, encArc_length, List.length_cons]; omega

theorem flatMap_enc_finals (xs : List UInt32) :
    xs.flatMap (fun w => encU32 w.toNat) = (xs.map UInt32.toNat).flatMap encU32 := by
  rw [List.flatMap_map]

theorem words_finals (xs : List UInt32) :
    (words xs.length (xs.flatMap (fun w => encU32 w.toNat))).map UInt32.ofNat = xs := by
  rw [flatMap_enc_finals]
  have := words_flatMap (xs.map UInt32.toNat) (by
    intro n hn
    obtain ⟨w, _, rfl⟩ := List.mem_map.mp hn
    exact w.toNat_lt)
  rw [List.length_map] at this
  rw [this, List.map_map]
  refine (List.map_congr_left (g := id) ?_).trans (List.map_id _)
  intro w _
  simp

theorem words_ints (xs : List Int) (h : ∀ x ∈ xs, InI32 x) :
    (words xs.length (xs.flatMap encI32)).map toI32 = xs := by
  have e : xs.flatMap encI32 = (xs.map (fun x => (x % 4294967296).toNat)).flatMap encU32 := by
    rw [List.flatMap_map]; rfl
  have := words_flatMap (xs.map (fun x => (x % 4294967296).toNat)) (by
    intro n hn
    obtain ⟨w, _, rfl⟩ := List.mem_map.mp hn
    omega)
  rw [List.length_map] at this
  rw [e, this, List.map_map]
  refine (List.map_congr_left (g := id) ?_).trans (List.map_id _)
  intro x hx
  exact wrap32_of (h x hx)

theorem decArc_encArc (a : Arc UInt32) (h1 : InI32 a.next) (h2 : InI32 a.ilabel)
    (h3 : InI32 a.olabel) : decArc (encArc a) = a := by
  have e1 : decI32 (encI32 a.next) = a.next := dec_encI32 h1
  have e2 : decI32 (encI32 a.ilabel) = a.ilabel := dec_encI32 h2
  have e3 : decI32 (encI32 a.olabel) = a.olabel := dec_encI32 h3
  have e4 : decU32 (encU32 a.weight.toNat) = a.weight.toNat := dec_encU32 a.weight.toNat_lt
  show Arc.mk (decI32 (encI32 a.next)) (decI32 (encI32 a.ilabel)) (decI32 (encI32 a.olabel))
    (UInt32.ofNat (decU32 (encU32 a.weight.toNat))) = a
  rw [e1, e2, e3, e4]
  simp

theorem decArcs_encArc : ∀ (xs : List (Arc UInt32)),
    (∀ a ∈ xs, InI32 a.next ∧ InI32 a.ilabel ∧ InI32 a.olabel) →
    decArcs xs.length (xs.flatMap encArc) = xs
  | [], _ => rfl
  | a :: xs, h => by
    have ih := decArcs_encArc xs (fun b hb => h b (by simp [hb]))
    obtain ⟨h1, h2, h3⟩ := h a (by simp)
    simp only [List.length_cons, List.flatMap_cons, decArcs]
    rw [List.take_append_of_le_length (by rw [encArc_length]; exact Nat.le_refl 16),
      List.drop_append_of_le_length (by rw [encArc_length]; exact Nat.le_refl 16)]
    rw [List.take_of_length_le (by rw [encArc_length]; exact Nat.le_refl 16), List.drop_of_length_le (by rw [encArc_length]; exact Nat.le_refl 16),
      List.nil_append, ih, decArc_encArc a h1 h2 h3]

theorem expectedSize_of {s a : Int} (h : InI32 (12 + 8 * s + 16 * a)) :
    expectedSize s a = 12 + 8 * s + 16 * a := wrap32_of h

theorem resizeCheck_ok {n : Int} (h : 0 ≤ n) (bs : List UInt8) : resizeCheck n bs = .ok ((), bs) := by
  unfold resizeCheck; rw [if_neg (by omega)]; rfl

theorem readArray_append {sz n : Nat} {xs rest : List UInt8} (hn : sz * n ≠ 0)
    (hle : sz * n ≤ 2147483647) (hx : xs.length = sz * n) :
    readArray sz n (xs ++ rest) = .ok (xs, rest) := by
  unfold readArray; rw [if_pos hle]; exact readBytes_append hn hx

theorem readArray_zero {sz n : Nat} (h : sz * n = 0) (bs : List UInt8) :
    readArray sz n bs = bad .io := by
  unfold readArray; rw [if_pos (by omega)]
  unfold readBytes; rw [if_pos (by omega)]

/-- What the converter guarantees about its arrays. -/
structure Fits (f : Fst UInt32) : Prop where
  sect : InI32 (12 + 8 * (f.finals.length : Int) + 16 * (f.arcs.length : Int))
  start : InI32 f.start
  arcs : ∀ a ∈ f.arcs, InI32 a.next ∧ InI32 a.ilabel ∧ InI32 a.olabel
  idxLen : f.stateIdx.length = f.finals.length
  idx : ∀ x ∈ f.stateIdx, InI32 x

/-- The bytes after the section name. -/
def bodyBytes (f : Fst UInt32) : List UInt8 :=
  encI32 (12 + 8 * f.finals.length + 16 * f.arcs.length) ++
  (encI32 f.finals.length ++ (encI32 f.arcs.length ++ (encI32 f.start ++
  (f.finals.flatMap (fun w => encU32 w.toNat) ++
  (f.stateIdx.flatMap encI32 ++
  f.arcs.flatMap encArc)))))

theorem fileBytes_eq (f : Fst UInt32) :
    fileBytes f = (pyName ++ List.replicate 23 0) ++ bodyBytes f := by
  unfold fileBytes bodyBytes
  simp only [List.append_assoc]

theorem read_fileBytes {f : Fst UInt32} (h : Fits f) (hs : f.finals ≠ []) (ha : f.arcs ≠ [])
    (rest : List UInt8) : read (fileBytes f ++ rest) = .ok (f, rest) := by
  obtain ⟨hsect, hstart, harcs, hil, hi⟩ := h
  have hs' : 0 < f.finals.length := List.length_pos_iff.mpr hs
  have ha' : 0 < f.arcs.length := List.length_pos_iff.mpr ha
  have hsect' := hsect
  unfold InI32 at hsect'
  unfold read
  rw [fileBytes_eq, List.append_assoc]
  rw [Rd.bind_of (readBytes_append (by decide) (by decide))]
  rw [if_neg (by decide)]
  unfold readBody bodyBytes
  simp only [List.append_assoc]
  rw [Rd.bind_of (readI32_append hsect _), Rd.bind_of (readI32_append (by unfold InI32; omega) _),
    Rd.bind_of (readI32_append (by unfold InI32; omega) _), Rd.bind_of (readI32_append hstart _)]
  rw [expectedSize_of hsect, if_neg (by simp)]
  unfold readData
  rw [Rd.bind_of (resizeCheck_ok (by omega) _), Int.toNat_natCast]
  rw [Rd.bind_of (readArray_append (by omega) (by omega)
    (by rw [flatMap_enc_finals, flatMap_encU32_length, List.length_map]))]
  rw [Rd.bind_of (readArray_append (by omega) (by omega)
    (by rw [flatMap_encI32_length, hil]))]
  rw [Rd.bind_of (resizeCheck_ok (by omega) _), Int.toNat_natCast]
  rw [Rd.bind_of (readArray_append (by omega) (by omega) (by rw [flatMap_encArc_length]))]
  rw [Rd.pure_apply, decArcs_encArc _ harcs, words_finals]
  have := words_ints _ hi
  rw [hil] at this
  rw [this]

theorem read_local : Local read := by
  have hr : ∀ n, Local (resizeCheck n) := fun n => Local.ite (Local.fault _) (Local.pure _)
  have hA : ∀ sz n, Local (readArray sz n) := fun sz n => Local.ite (Local.bytes _) (Local.fault _)
  unfold read readBody readData
  refine Local.bind (Local.bytes _) fun name => Local.ite (Local.fail _) ?_
  refine Local.bind Local.i32 fun a => Local.bind Local.i32 fun b => Local.bind Local.i32 fun c =>
    Local.bind Local.i32 fun d => Local.ite (Local.fail _) ?_
  exact Local.bind (hr _) fun _ => Local.bind (hA _ _) fun _ => Local.bind (hA _ _) fun _ =>
    Local.bind (hr _) fun _ => Local.bind (hA _ _) fun _ => Local.pure _

theorem decArcs_length : ∀ (n : Nat) (bs : List UInt8), (decArcs n bs).length = n
  | 0, _ => rfl
  | n + 1, bs => by simp [decArcs, decArcs_length n]

theorem readArray_ok {sz n : Nat} {bs x rest : List UInt8} (h : readArray sz n bs = .ok (x, rest)) :
    sz * n ≠ 0 ∧ bs = x ++ rest ∧ x.length = sz * n := by
  unfold readArray at h
  split at h
  · exact readBytes_ok h
  · cases h

theorem resizeCheck_of_ok {n : Int} {bs r : List UInt8} {u : Unit}
    (h : resizeCheck n bs = .ok (u, r)) : 0 ≤ n ∧ r = bs := by
  unfold resizeCheck at h
  split at h
  · cases h
  · cases h; exact ⟨by omega, rfl⟩

/-- What an accepted file looks like. -/
theorem read_ok {bs rest : List UInt8} {f : Fst UInt32} (h : read bs = .ok (f, rest)) :
    ∃ name sz ns na st : List UInt8, ∃ data : List UInt8,
      bs = name ++ (sz ++ (ns ++ (na ++ (st ++ (data ++ rest))))) ∧
      name.length = 32 ∧ sz.length = 4 ∧ ns.length = 4 ∧ na.length = 4 ∧ st.length = 4 ∧
      cstr (name.take 31) = sectionName ∧
      decI32 ns = f.finals.length ∧ decI32 na = f.arcs.length ∧ decI32 st = f.start ∧
      f.stateIdx.length = f.finals.length ∧
      data.length = 8 * f.finals.length + 16 * f.arcs.length ∧
      decI32 sz = wrap32 (12 + 8 * f.finals.length + 16 * f.arcs.length) ∧
      f.finals ≠ [] ∧ f.arcs ≠ [] := by
  unfold read at h
  obtain ⟨name, r0, h0, h⟩ := Rd.bind_ok h
  obtain ⟨_, e0, l0⟩ := readBytes_ok h0
  split at h
  · cases h
  rename_i hname
  unfold readBody at h
  obtain ⟨szv, r1, h1, h⟩ := Rd.bind_ok h
  obtain ⟨_, sz, l1, e1, v1⟩ := readI32_ok h1
  obtain ⟨nsv, r2, h2, h⟩ := Rd.bind_ok h
  obtain ⟨_, ns, l2, e2, v2⟩ := readI32_ok h2
  obtain ⟨nav, r3, h3, h⟩ := Rd.bind_ok h
  obtain ⟨_, na, l3, e3, v3⟩ := readI32_ok h3
  obtain ⟨stv, r4, h4, h⟩ := Rd.bind_ok h
  obtain ⟨_, st, l4, e4, v4⟩ := readI32_ok h4
  split at h
  · cases h
  rename_i hsz
  unfold readData at h
  obtain ⟨_, r5, h5, h⟩ := Rd.bind_ok h
  obtain ⟨p5, e5⟩ := resizeCheck_of_ok h5
  obtain ⟨fin, r6, h6, h⟩ := Rd.bind_ok h
  obtain ⟨p6, e6, l6⟩ := readArray_ok h6
  obtain ⟨idx, r7, h7, h⟩ := Rd.bind_ok h
  obtain ⟨p7, e7, l7⟩ := readArray_ok h7
  obtain ⟨_, r8, h8, h⟩ := Rd.bind_ok h
  obtain ⟨p8, e8⟩ := resizeCheck_of_ok h8
  obtain ⟨ar, r9, h9, h⟩ := Rd.bind_ok h
  obtain ⟨p9, e9, l9⟩ := readArray_ok h9
  cases h
  have lf : ((words nsv.toNat fin).map UInt32.ofNat).length = nsv.toNat := by
    rw [List.length_map, words_length]
  have la : (decArcs nav.toNat ar).length = nav.toNat := decArcs_length _ _
  have li : ((words nsv.toNat idx).map toI32).length = nsv.toNat := by
    rw [List.length_map, words_length]
  refine ⟨name, sz, ns, na, st, fin ++ (idx ++ ar), ?_, l0, l1, l2, l3, l4, ?_, ?_, ?_, ?_, ?_, ?_,
    ?_, ?_, ?_⟩
  · subst e9 e8 e7 e6 e5 e4 e3 e2 e1
    rw [e0]
    simp only [List.append_assoc]
  · exact Decidable.not_not.mp hname
  · simp only [lf, ← v2]; omega
  · simp only [la, ← v3]; omega
  · exact v4.symm
  · simp only [lf, li]
  · simp only [lf, la, List.length_append, l6, l7, l9]; omega
  · simp only [lf, la]
    have := Decidable.not_not.mp hsz
    unfold expectedSize at this
    rw [← v1, ← this]
    congr 2
    · congr 2; omega
    · congr 1; omega
  · intro hc
    have := congrArg List.length hc
    simp only [lf, List.length_nil] at this
    omega
  · intro hc
    have := congrArg List.length hc
    simp only [la, List.length_nil] at this
    omega

theorem idxOf_mem {W : Type} : ∀ (gs : List (List (Arc W))) (o : Nat) (x : Int), x ∈ idxOf gs o →
    x = -1 ∨ (0 ≤ x ∧ x ≤ ((o + gs.flatten.length : Nat) : Int))
  | [], _, _, h => by simp [idxOf] at h
  | g :: gs, o, x, h => by
    simp only [idxOf, List.mem_cons] at h
    rcases h with h | h
    · split at h
      · left; exact h
      · right; subst h; constructor <;> omega
    · rcases idxOf_mem gs (o + g.length) x h with h | h
      · exact Or.inl h
      · right
        rw [List.flatten_cons, List.length_append]
        omega

/-- Files accepted by `packable` after conversion satisfy `Fits`. -/
theorem fits_of_convert {t : Transducer UInt32} {f : Fst UInt32} (h : convert t = .ok f)
    (hp : packable f = true) : Fits f ∧ f.start = t.start ∧ f.finals = t.states.map (·.1) ∧
      Layout f (groups t) := by
  rw [convert_layout] at h
  cases h
  unfold packable fstOf at hp
  simp only [Bool.and_eq_true, decide_eq_true_eq, List.all_eq_true] at hp
  obtain ⟨⟨h1, h2⟩, h3⟩ := hp
  have h1' := h1
  unfold InI32 at h1'
  refine ⟨⟨h1, h2, fun a ha => ⟨(h3 a ha).1.1, (h3 a ha).1.2, (h3 a ha).2⟩, ?_, ?_⟩, rfl, rfl,
    ⟨rfl, rfl, by show ((groups t).flatten.length : Int) ≤ _; omega⟩⟩
  · simp [fstOf, idxOf_length, groups_length]
  · intro x hx
    have := idxOf_mem _ _ _ hx
    unfold InI32
    omega

end Verif.Fst
