import Verif.FstSpec
import Verif.FstFile

/-! # Properties of the FST file and of arc lookup (C10 – C12) -/

namespace Verif.Fst

open Verif

variable {W : Type}

theorem rawArcs_length : ∀ (st : List (W × List (Arc W))) (s : Nat),
    (rawArcs st s).length = (st.map (fun x => x.2.length)).sum
  | [], _ => rfl
  | (_, as) :: st, s => by simp [rawArcs, rawArcs_length st]

theorem mem_rawArcs : ∀ (st : List (W × List (Arc W))) (s : Nat) (x : Nat × Arc W),
    x ∈ rawArcs st s → ∃ y ∈ st, x.2 ∈ y.2
  | [], _, _, h => by simp [rawArcs] at h
  | (w, as) :: st, s, x, h => by
    simp only [rawArcs, List.mem_append, List.mem_map] at h
    rcases h with ⟨a, ha, rfl⟩ | h
    · exact ⟨(w, as), by simp, ha⟩
    · obtain ⟨y, hy, hx⟩ := mem_rawArcs st (s + 1) x h
      exact ⟨y, by simp [hy], hx⟩

theorem groups_flatten_eq (t : Transducer W) : (groups t).flatten = (sortedArcs t).map (·.2) := by
  rw [sortedArcs_tag, tag_map_snd]

theorem groups_flatten_length (t : Transducer W) : (groups t).flatten.length = arcCount t := by
  rw [groups_flatten_eq, List.length_map, (sortedArcs_perm t).length_eq, rawArcs_length]
  rfl

theorem groups_flatten_mem {t : Transducer W} {a : Arc W} (h : a ∈ (groups t).flatten) :
    ∃ x ∈ t.states, a ∈ x.2 := by
  rw [groups_flatten_eq] at h
  obtain ⟨x, hx, rfl⟩ := List.mem_map.mp h
  exact mem_rawArcs _ _ _ ((sortedArcs_perm t).mem_iff.mp hx)

theorem perm_of_filters [DecidableEq W] {as out : List (Arc W)}
    (h : ∀ l : Int, out.filter (fun a => decide (a.ilabel = l))
      = as.filter (fun a => decide (a.ilabel = l))) : out.Perm as := by
  rw [List.perm_iff_count]
  intro a
  have := congrArg (List.count a) (h a.ilabel)
  rwa [List.count_filter (by simp), List.count_filter (by simp)] at this

theorem byLabel_group [DecidableEq W] {t : Transducer W} {s : Nat} {w : W} {as : List (Arc W)}
    (h : t.states[s]? = some (w, as)) : ByLabel as (groupOf (sortedArcs t) s) :=
  ⟨perm_of_filters (group_filter h), group_sorted t s, group_filter h⟩

/-- The order is determined: two lists that are `ByLabel as` are equal. -/
theorem ByLabel.unique {as x y : List (Arc W)} (hx : ByLabel as x) (hy : ByLabel as y) : x = y := by
  obtain ⟨px, sx, fx⟩ := hx
  obtain ⟨py, sy, fy⟩ := hy
  clear px py
  have hf : ∀ l : Int, x.filter (fun a => decide (a.ilabel = l))
      = y.filter (fun a => decide (a.ilabel = l)) := fun l => (fx l).trans (fy l).symm
  clear fx fy
  induction x generalizing y with
  | nil =>
    cases y with
    | nil => rfl
    | cons b y =>
      have := hf b.ilabel
      simp at this
  | cons a x ih =>
    cases y with
    | nil =>
      have := hf a.ilabel
      simp at this
    | cons b y =>
      have pa := List.pairwise_cons.mp sx
      have pb := List.pairwise_cons.mp sy
      have hla : b.ilabel ≤ a.ilabel := by
        have : a ∈ (b :: y).filter (fun c => decide (c.ilabel = a.ilabel)) := by
          rw [← hf a.ilabel]; simp
        rcases List.mem_cons.mp (List.mem_filter.mp this).1 with h | h
        · rw [h]; omega
        · exact pb.1 a h
      have hlb : a.ilabel ≤ b.ilabel := by
        have : b ∈ (a :: x).filter (fun c => decide (c.ilabel = b.ilabel)) := by
          rw [hf b.ilabel]; simp
        rcases List.mem_cons.mp (List.mem_filter.mp this).1 with h | h
        · rw [h]; omega
        · exact pa.1 b h
      have he : a.ilabel = b.ilabel := by omega
      have h0 := hf a.ilabel
      rw [List.filter_cons, if_pos (by simp), List.filter_cons, if_pos (by simp [he])] at h0
      obtain ⟨rfl, _⟩ := List.cons.inj h0
      congr 1
      refine ih pa.2 pb.2 ?_
      intro l
      have hl := hf l
      by_cases hc : a.ilabel = l
      · rw [List.filter_cons, if_pos (by simpa using hc), List.filter_cons,
          if_pos (by simpa using hc)] at hl
        exact (List.cons.inj hl).2
      · rwa [List.filter_cons, if_neg (by simpa using hc), List.filter_cons,
          if_neg (by simpa using hc)] at hl

/-- **C10.**  Reading back the file written by the converter: the converter succeeds, the reader returns
OK and leaves exactly what follows the section, the start state and all final weights are the same, and
iterating over a state delivers exactly its arcs, ordered by input label with ties in original order. -/
theorem C10_fst_file_round_trip (t : Transducer UInt32) (hfit : FitsFields t) (hs : t.states ≠ [])
    (ha : arcCount t ≠ 0) (rest : List UInt8) :
    ∃ bytes f, converterOutput t = .ok bytes ∧ read (bytes ++ rest) = .ok (f, rest) ∧
      f.start = t.start ∧ f.finals.length = t.states.length ∧
      ∀ (s : Nat) w as, t.states[s]? = some (w, as) →
        final f s = .ok w ∧ ∃ out, iterArcs f s = .ok out ∧ ByLabel as out := by
  have hc := convert_layout t
  have hp : packable (fstOf t) = true := by
    unfold packable fstOf
    simp only [Bool.and_eq_true, decide_eq_true_eq, List.all_eq_true, List.length_map,
      groups_flatten_length]
    refine ⟨⟨?_, hfit.start⟩, ?_⟩
    · have := hfit.size; unfold InI32; omega
    · intro a ha
      obtain ⟨x, hx, hax⟩ := groups_flatten_mem ha
      have := hfit.arcs x hx a hax
      exact ⟨⟨this.1, this.2.1⟩, this.2.2⟩
  obtain ⟨hF, e1, e2, hL⟩ := fits_of_convert hc hp
  refine ⟨_, _, ?_, read_fileBytes hF ?_ ?_ rest, e1, ?_, ?_⟩
  · unfold converterOutput
    rw [hc, ok_bind, if_pos hp]
  · simpa [fstOf] using hs
  · intro h
    have := congrArg List.length h
    unfold fstOf at this
    simp only [groups_flatten_length, List.length_nil] at this
    exact ha this
  · simp [fstOf]
  · intro s w as h
    refine ⟨?_, _, iterArcs_layout hL (groups_get h), byLabel_group h⟩
    have hlt := (List.getElem?_eq_some_iff.mp h).1
    unfold final fstOf
    simp only [List.length_map]
    rw [show decide ((0 : Int) ≤ s ∧ (s : Int) < t.states.length) = true by simp; omega,
      cassert_true, ok_bind]
    exact aget_nat (by rw [List.getElem?_map, h]; rfl)

/-- A transducer whose arcs are out of order, with a state without arcs. -/
def exT : Transducer UInt32 :=
  ⟨2, [(7, [⟨1, 5, 50, 1⟩, ⟨2, 3, 30, 2⟩, ⟨0, 5, 51, 3⟩]), (8, []), (9, [⟨0, 0, 0, 4⟩])]⟩

/-- The hypotheses of C10 are satisfiable. -/
example : FitsFields exT ∧ exT.states ≠ [] ∧ arcCount exT ≠ 0 := by
  refine ⟨⟨by decide, ?_, by decide⟩, by decide, by decide⟩
  simp only [exT]
  decide

/-- … and the model computes what C10 says on it. -/
example : (converterOutput exT).bind (fun b => match read (b ++ [1, 2]) with
    | .ok (f, r) => (iterArcs f 0).bind (fun as => .ok (as.map (·.olabel), r))
    | .error _ => .error .ub) = .ok ([30, 50, 51], [1, 2]) := by
  decide +kernel

/-- **C10, limit.**  Without any arc the written file is *not* readable: `fread` of zero bytes reports
failure, so `Fst::Read` returns an I/O error. -/
theorem C10_file_without_arcs_unreadable (t : Transducer UInt32)
    (ha : arcCount t = 0) (bytes : List UInt8) (h : converterOutput t = .ok bytes) :
    read bytes = bad .io := by
  unfold converterOutput at h
  obtain ⟨f, hc, h⟩ := bind_ok h
  split at h
  · rename_i hp
    cases h
    obtain ⟨⟨hsect, hstart, harcs, hil, hi⟩, e1, e2, hL⟩ := fits_of_convert hc hp
    have hnil : f.arcs = [] := by
      rw [hL.arcs, ← List.length_eq_zero_iff, groups_flatten_length, ha]
    have hsect' := hsect
    unfold InI32 at hsect'
    unfold read
    rw [fileBytes_eq, Rd.bind_of (readBytes_append (by decide) (by decide)), if_neg (by decide)]
    unfold readBody bodyBytes
    rw [Rd.bind_of (readI32_append hsect _), Rd.bind_of (readI32_append (by unfold InI32; omega) _),
      Rd.bind_of (readI32_append (by unfold InI32; omega) _), Rd.bind_of (readI32_append hstart _)]
    rw [expectedSize_of hsect, if_neg (by simp)]
    unfold readData
    rw [Rd.bind_of (resizeCheck_ok (by omega) _), Int.toNat_natCast]
    by_cases hz : f.finals.length = 0
    · refine Rd.bind_error ?_
      exact readArray_zero (by omega) _
    · rw [Rd.bind_of (readArray_append (by omega) (by omega)
        (by rw [flatMap_enc_finals, flatMap_encU32_length, List.length_map]))]
      rw [Rd.bind_of (readArray_append (by omega) (by omega)
        (by rw [flatMap_encI32_length, hil]))]
      rw [Rd.bind_of (resizeCheck_ok (by omega) _), Int.toNat_natCast]
      refine Rd.bind_error ?_
      exact readArray_zero (by rw [hnil]; rfl) _
  · cases h

/-- A transducer without arcs meets the hypotheses. -/
example : arcCount (⟨0, [(7, [])]⟩ : Transducer UInt32) = 0 ∧
    (converterOutput ⟨0, [(7, [])]⟩).isOk = true :=
  ⟨by decide, by decide +kernel⟩

/-- **C11 (a).**  Every proper prefix of a file written by the converter is rejected with an I/O error. -/
theorem C11_truncated_rejected (t : Transducer UInt32) (hfit : FitsFields t) (bytes bs tail : List UInt8)
    (h : converterOutput t = .ok bytes) (hb : bytes = bs ++ tail) (ht : tail ≠ []) :
    read bs = bad .io := by
  by_cases ha : arcCount t = 0
  · have hr := C10_file_without_arcs_unreadable t ha bytes h
    rw [hb] at hr
    have hl := read_local bs tail
    cases hc : read bs with
    | ok x => rw [hc] at hl; rw [show read (bs ++ tail) = _ from hl] at hr; cases hr
    | error e =>
      rw [hc] at hl
      cases e with
      | fault f => rw [show read (bs ++ tail) = _ from hl] at hr; cases hr
      | status c =>
        cases c with
        | io => rfl
        | corruption => rw [show read (bs ++ tail) = _ from hl] at hr; cases hr
        | runtime => rw [show read (bs ++ tail) = _ from hl] at hr; cases hr
  · have hs : t.states ≠ [] := by
      intro hs; apply ha; unfold arcCount; rw [hs]; rfl
    obtain ⟨bytes', f, h1, h2, _⟩ := C10_fst_file_round_trip t hfit hs ha []
    rw [h] at h1
    cases h1
    rw [List.append_nil, hb] at h2
    exact read_local.truncated h2 ht

/-- A truncated file that is not trivially short: all but the last byte of the file of `exT`. -/
example : (converterOutput exT).bind (fun b => .ok (b.length, (read (b.take 135)).isOk, (read b).isOk))
    = .ok (136, false, true) := by decide +kernel

/-- **C11 (b).**  A file that does not start with the section name is rejected. -/
theorem C11_wrong_name_rejected (bs : List UInt8) (h : cstr (bs.take 31) ≠ mark) :
    read bs = bad .io ∨ read bs = bad .corruption := by
  by_cases hl : bs.length < 32
  · exact Or.inl (Rd.bind_error (readBytes_short hl))
  · right
    unfold read
    have h1 : readBytes 32 bs = .ok (bs.take 32, bs.drop 32) := by
      unfold readBytes; rw [if_neg (by omega)]
    rw [Rd.bind_of h1, List.take_take, if_pos (by rw [show sectionName = mark from rfl]; simpa using h)]
    rfl

/-- Such a file: a vector section. -/
example : cstr (([86, 69, 67, 48] ++ List.replicate 60 (0 : UInt8)).take 31) ≠ mark := by decide

/-- **C11 (c), partial.**  A file whose section size field differs from the size its counts require is
rejected.  The size is compared modulo 2^32 only, so this needs the required size to fit in 32 bits;
`C11_negative_count_throws` shows a file where it does not. -/
theorem C11_wrong_size_rejected_partial (name sz ns na rest : List UInt8) (h0 : name.length = 32)
    (h1 : sz.length = 4) (h2 : ns.length = 4) (h3 : na.length = 4)
    (hfit : InI32 (12 + 8 * decI32 ns + 16 * decI32 na))
    (hne : decI32 sz ≠ 12 + 8 * decI32 ns + 16 * decI32 na) :
    read (name ++ (sz ++ (ns ++ (na ++ rest)))) = bad .io ∨
      read (name ++ (sz ++ (ns ++ (na ++ rest)))) = bad .corruption := by
  have e : ∀ (v r : List UInt8), v.length = 4 → readI32 (v ++ r) = .ok (decI32 v, r) := by
    intro v r hv
    unfold readI32
    rw [Rd.bind_of (readBytes_append (by decide) hv)]; rfl
  unfold read
  rw [Rd.bind_of (readBytes_append (by decide) h0)]
  split
  · exact Or.inr rfl
  · unfold readBody
    rw [Rd.bind_of (e sz _ h1), Rd.bind_of (e ns _ h2), Rd.bind_of (e na _ h3)]
    by_cases hl : rest.length < 4
    · exact Or.inl (Rd.bind_error (readI32_short hl))
    · rw [Rd.bind_of (readI32_total (by omega)), expectedSize_of hfit, if_pos (by omega)]
      exact Or.inr rfl

/-- Hypotheses of C11 (c) on a file with a size field that is off by one. -/
example : InI32 (12 + 8 * decI32 (encI32 3) + 16 * decI32 (encI32 5)) ∧
    decI32 (encI32 117) ≠ 12 + 8 * decI32 (encI32 3) + 16 * decI32 (encI32 5) := by decide

/-- **C11, the code deviates.**  A file declaring −2^29 states and no arcs with section size 12: the
required size 12 − 2^32 equals 12 modulo 2^32, the check passes, and `resize` with a negative number
throws instead of `Fst::Read` returning a status. -/
theorem C11_negative_count_throws :
    read (mark ++ List.replicate 23 0 ++ encI32 12 ++ encI32 (-536870912) ++ encI32 0 ++ encI32 0)
      = .error (.fault .throw) := by
  decide +kernel

/-- **C11 (d).**  An accepted file starts with the section name, its counts agree with the data returned,
the size field agrees with the counts, and the data read are exactly bytes of the file: nothing is read
past its end. -/
theorem C11_accepted_file_is_complete (bs rest : List UInt8) (f : Fst UInt32)
    (h : read bs = .ok (f, rest)) :
    ∃ hdr data : List UInt8, bs = hdr ++ (data ++ rest) ∧ hdr.length = 48 ∧
      data.length = 8 * f.finals.length + 16 * f.arcs.length ∧
      cstr (hdr.take 31) = mark ∧
      decI32 ((hdr.drop 32).take 4) = wrap32 (12 + 8 * f.finals.length + 16 * f.arcs.length) ∧
      decI32 ((hdr.drop 36).take 4) = f.finals.length ∧
      decI32 ((hdr.drop 40).take 4) = f.arcs.length ∧
      decI32 ((hdr.drop 44).take 4) = f.start ∧
      f.stateIdx.length = f.finals.length := by
  obtain ⟨name, sz, ns, na, st, data, e, l0, l1, l2, l3, l4, hn, c1, c2, c3, c4, c5, c6, _⟩ := read_ok h
  have t4 : ∀ (a b : List UInt8), a.length = 4 → (a ++ b).take 4 = a := by
    intro a b h; rw [List.take_append_of_le_length (by omega), List.take_of_length_le (by omega)]
  refine ⟨name ++ (sz ++ (ns ++ (na ++ st))), data, by rw [e]; simp only [List.append_assoc], ?_, c5, ?_,
    ?_, ?_, ?_, ?_, c4⟩
  · simp only [List.length_append]; omega
  · rw [List.take_append_of_le_length (by omega)]; exact hn
  · rw [← l0, List.drop_left, t4 _ _ l1]; exact c6
  · rw [show (36 : Nat) = name.length + 4 by omega, ← List.drop_drop, List.drop_left, ← l1,
      List.drop_left, l1, t4 _ _ l2]
    exact c1
  · rw [show (40 : Nat) = name.length + (sz.length + 4) by omega, ← List.drop_drop, List.drop_left,
      ← List.drop_drop, List.drop_left, ← l2, List.drop_left, l2, t4 _ _ l3]
    exact c2
  · rw [show (44 : Nat) = name.length + (sz.length + (ns.length + 4)) by omega, ← List.drop_drop,
      List.drop_left, ← List.drop_drop, List.drop_left, ← List.drop_drop, List.drop_left, ← l3,
      List.drop_left, List.take_of_length_le (by omega)]
    exact c3

/-- **C12.**  On a converted FST, `GetArc(s, l)` returns the first arc of state `s` with input label `l`,
and false when there is none; no access leaves the arrays. -/
theorem C12_get_arc_finds_first_arc (t : Transducer W) (hsize : arcCount t ≤ 2147483647) :
    ∃ f, convert t = .ok f ∧
      ∀ s : Nat, s < t.states.length → ∀ l : Int, getArc f s l = .ok (firstArc t s l) := by
  refine ⟨_, convert_layout t, ?_⟩
  intro s hs l
  have hL : Layout (fstOf t) (groups t) :=
    ⟨rfl, rfl, by show ((groups t).flatten.length : Int) ≤ _; rw [groups_flatten_length]; omega⟩
  obtain ⟨⟨w, as⟩, hst⟩ : ∃ x, t.states[s] = x := ⟨_, rfl⟩
  have hst' : t.states[s]? = some (w, as) := by rw [List.getElem?_eq_getElem hs, hst]
  rw [getArc_layout hL (groups_get hst') (group_sorted t s)]
  unfold firstArc
  rw [hst']
  simp only
  rw [find?_filter_congr _ (group_filter hst' l)]

/-- Concrete lookups: two arcs share label 5, the first in file order is returned; a state without
arcs; a missing label. -/
example : arcCount exT ≤ 2147483647 ∧
    (convert exT).bind (fun f => getArc f 0 5) = .ok (some ⟨1, 5, 50, 1⟩) ∧
    (convert exT).bind (fun f => getArc f 1 5) = .ok none ∧
    (convert exT).bind (fun f => getArc f 0 4) = .ok none := by decide +kernel

/-! ## Files that pass the reader but were not written by the converter (C55) -/

theorem firstPos_mem : ∀ (l : List Int) (x : Int), firstPos l = some x → x ∈ l ∧ 0 < x
  | [], _, h => by cases h
  | y :: l, x, h => by
    unfold firstPos at h
    split at h
    · cases h; exact ⟨by simp, by assumption⟩
    · have := firstPos_mem l x h
      exact ⟨by simp [this.1], this.2⟩

theorem lowerBound_in_bounds (arcs : List (Arc W)) (label : Int) : ∀ (fuel : Nat) (first len : Int),
    0 ≤ first → len < fuel → 0 < fuel → first + len ≤ arcs.length → first ≤ arcs.length →
    ∃ p, lowerBound arcs label fuel first len = .ok p ∧ first ≤ p ∧ (p = first ∨ p ≤ first + len)
  | 0, _, _, _, _, hf, _, _ => absurd hf (by omega)
  | fuel + 1, first, len, h0, h1, hf, h2, h3 => by
    unfold lowerBound
    split
    · rename_i hl
      have hg : (first + len / 2).toNat < arcs.length := by omega
      simp only
      rw [aget_of (by omega) (List.getElem?_eq_getElem hg), ok_bind]
      split
      · obtain ⟨p, hp, hp1, hp2⟩ := lowerBound_in_bounds arcs label fuel (first + len / 2 + 1)
          (len - len / 2 - 1) (by omega) (by omega) (by omega) (by omega) (by omega)
        exact ⟨p, hp, by omega, by omega⟩
      · obtain ⟨p, hp, hp1, hp2⟩ := lowerBound_in_bounds arcs label fuel first
          (len / 2) (by omega) (by omega) (by omega) (by omega) (by omega)
        exact ⟨p, hp, by omega, by omega⟩
    · exact ⟨first, rfl, by omega, by omega⟩

/-- **C55, partial.**  Lookup in a loaded FST stays inside the arrays if every entry of the state index
is negative or the position of an arc.  What is missing: `Fst::Read` does not check this, see
`C55_accepted_file_can_be_unsafe`. -/
theorem C55_lookup_safe_if_index_in_range_partial (f : Fst W) (hsz : (f.arcs.length : Int) ≤ 2147483647)
    (hidx : ∀ x ∈ f.stateIdx, x < f.arcs.length) (s : Nat) (hs : s < f.stateIdx.length) (l : Int) :
    ∃ r, getArc f s l = .ok r := by
  have hg := List.getElem?_eq_getElem hs
  have hx := hidx f.stateIdx[s] (List.getElem_mem hs)
  generalize f.stateIdx[s] = x at hg hx
  unfold getArc countArcs
  rw [aget_nat hg, ok_bind]
  split
  · exact ⟨none, rfl⟩
  rename_i hneg
  obtain ⟨next, hn, hn0, hn1⟩ : ∃ next : Int,
      (firstPos (f.stateIdx.drop ((s : Int).toNat + 1))).getD f.arcs.length = next ∧ 0 ≤ next ∧ next ≤ f.arcs.length := by
    cases hf : firstPos (f.stateIdx.drop ((s : Int).toNat + 1)) with
    | none => exact ⟨f.arcs.length, rfl, by omega, by omega⟩
    | some y =>
      obtain ⟨hm, hp⟩ := firstPos_mem _ _ hf
      have := hidx y (List.mem_of_mem_drop hm)
      exact ⟨y, rfl, by omega, by omega⟩
  simp only [hn]
  rw [i32_of (by unfold InI32; omega), ok_bind]
  split
  · exact ⟨none, rfl⟩
  rename_i hz
  have ha : ∀ i : Int, 0 ≤ i → i ≤ f.arcs.length → address f i = .ok () := by
    intro i h1 h2; unfold address; rw [if_pos ⟨h1, h2⟩]
  rw [ok_bind, ha x (by omega) (by omega), ok_bind, ha (x + (next - x)) (by omega) (by omega), ok_bind]
  obtain ⟨p, hp, hp1, hp2⟩ := lowerBound_in_bounds f.arcs l ((next - x).toNat + 1) x (next - x)
    (by omega) (by omega) (by omega) (by omega) (by omega)
  rw [hp, ok_bind]
  split
  · exact ⟨none, rfl⟩
  rename_i hpe
  have hplt : p.toNat < f.arcs.length := by omega
  rw [aget_of (by omega) (List.getElem?_eq_getElem hplt), ok_bind]
  split
  · exact ⟨none, rfl⟩
  · exact ⟨_, rfl⟩

/-- An index that is in range but is not what the converter writes (overlapping states). -/
example : ∀ x ∈ (⟨0, [⟨1, 5, 50, 1⟩, ⟨2, 3, 30, 2⟩], [1, 0, -7], [1, 2, 3]⟩ : Fst Nat).stateIdx,
    x < ((⟨0, [⟨1, 5, 50, 1⟩, ⟨2, 3, 30, 2⟩], [1, 0, -7], [1, 2, 3]⟩ : Fst Nat).arcs.length : Int) := by
  decide

/-- **C55, the code deviates.**  A file that `Fst::Read` accepts (one state, one arc, state index 5) and
on which the first lookup is undefined: the address of arc 5 of 1 is formed and read. -/
theorem C55_accepted_file_can_be_unsafe :
    ∃ f, read (mark ++ List.replicate 23 0 ++ encI32 36 ++ encI32 1 ++ encI32 1 ++ encI32 0 ++
        encI32 0 ++ encI32 5 ++ encArc ⟨0, 1, 1, 0⟩) = .ok (f, []) ∧ getArc f 0 1 = .error .ub := by
  refine ⟨⟨0, [⟨0, 1, 1, 0⟩], [5], [0]⟩, ?_, ?_⟩ <;> decide +kernel

end Verif.Fst
