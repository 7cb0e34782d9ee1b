import Verif.HclgCut

/-!
# What a file looks like that is accepted
-/

namespace Verif.Hclg

open Verif Verif.Hclg.Spec

theorem read_inv {s : Strm} {n : Nat} (h : (s.read n).2.fail = false) :
    s.rest = (s.read n).1 ++ (s.read n).2.rest ∧ (s.read n).1.length = n := by
  have hf : ¬ s.fail = true := by rw [read_mono h]; exact Bool.false_ne_true
  have e : s.read n = if n ≤ s.rest.length then (s.rest.take n, ⟨s.rest.drop n, s.pos + n, false⟩)
      else (s.rest, ⟨[], s.pos + s.rest.length, true⟩) := by
    unfold Strm.read
    rw [if_neg hf]
  rw [e] at h ⊢
  split
  · rename_i hn
    dsimp only
    rw [List.take_append_drop, List.length_take]
    exact ⟨rfl, by omega⟩
  · rename_i hn
    rw [if_neg hn] at h
    cases h

theorem word_inv {s : Strm} {k old : Nat} (h : (readWord k old s).2.fail = false) :
    s.rest = leBytes k (readWord k old s).1 ++ (readWord k old s).2.rest ∧ (readWord k old s).1 < 256 ^ k := by
  unfold readWord at h ⊢
  dsimp only at h ⊢
  obtain ⟨h1, h2⟩ := read_inv h
  have e : List.drop (s.read k).1.length (leBytes k old) = [] := List.drop_of_length_le (by rw [leBytes_length]; omega)
  rw [e, List.append_nil]
  have h3 := leBytes_le (s.read k).1
  rw [h2] at h3
  rw [h3]
  have h4 := le_lt (s.read k).1
  rw [h2] at h4
  exact ⟨h1, h4⟩

theorem chars_inv : ∀ {n : Nat} {s s' : Strm} {x : Str}, readChars n s = .ok (x, s') → s'.fail = false →
    s.rest = x ++ s'.rest ∧ x.length = n
  | 0, s, s', x, hs, _ => by
    injection hs with hs
    injection hs with h1 h2
    subst h1
    subst h2
    exact ⟨rfl, rfl⟩
  | n + 1, s, s', x, hs, hf => by
    rw [readChars] at hs
    split at hs
    · rename_i c s1 hr
      obtain ⟨⟨y, s2⟩, h1, h2⟩ := bind_ok hs
      injection h2 with h2
      injection h2 with h2 h3
      dsimp only at h2 h3
      subst h2
      subst h3
      obtain ⟨h3, h4⟩ := chars_inv h1 hf
      have hm := chars_mono h1 hf
      have h5 := read_inv (s := s) (n := 1) (by rw [hr]; exact hm)
      rw [hr] at h5
      rw [h5.1, h3, List.length_cons, h4]
      exact ⟨rfl, rfl⟩
    · cases hs

theorem string_inv {s s' : Strm} {x : Str} (hs : readString s = .ok (x, s')) (hf : s'.fail = false) (hx : x ≠ []) :
    s.rest = stringBytes x ++ s'.rest := by
  unfold readString at hs
  have hm := chars_mono hs hf
  obtain ⟨h1, h2⟩ := chars_inv hs hf
  obtain ⟨h3, h4⟩ := word_inv hm
  have h0 : x.length ≠ 0 := fun h => hx (List.length_eq_zero_iff.1 h)
  have h5 : (readWord 4 0 s).1 = x.length := by
    generalize (readWord 4 0 s).1 = w at h2 h4
    unfold signed at h2
    split at h2 <;> omega
  rw [h3, h5, h1]
  unfold stringBytes
  rw [List.append_assoc]

theorem words_inv {s s' : Strm} {f a : Str} {h : Header} (hs : headerWords f a s = .ok (some h, s')) :
    h.fstType = f ∧ h.arcType = a ∧ IsInt h.version ∧ h.flags < 4294967296 ∧ h.properties < 18446744073709551616 ∧
      IsInt64 h.start ∧ IsInt64 h.numStates ∧ IsInt64 h.numArcs ∧
      s.rest = leBytes 4 (unsigned 4294967296 h.version) ++ leBytes 4 h.flags ++ leBytes 8 h.properties ++
        leBytes 8 (unsigned 18446744073709551616 h.start) ++ leBytes 8 (unsigned 18446744073709551616 h.numStates) ++
        leBytes 8 (unsigned 18446744073709551616 h.numArcs) ++ s'.rest := by
  unfold headerWords at hs
  dsimp only at hs
  split at hs
  · cases hs
  rename_i h6
  have h6 := Bool.eq_false_iff.2 h6
  have h5 := word_mono h6
  have h4 := word_mono h5
  have h3 := word_mono h4
  have h2 := word_mono h3
  have h1 := word_mono h2
  injection hs with hs
  injection hs with e1 e2
  injection e1 with e1
  obtain ⟨r1, l1⟩ := word_inv h1
  obtain ⟨r2, l2⟩ := word_inv h2
  obtain ⟨r3, l3⟩ := word_inv h3
  obtain ⟨r4, l4⟩ := word_inv h4
  obtain ⟨r5, l5⟩ := word_inv h5
  obtain ⟨r6, l6⟩ := word_inv h6
  have u4 : ∀ w, w < 256 ^ 4 → unsigned 4294967296 (signed 4294967296 w) = w ∧ IsInt (signed 4294967296 w) := by
    intro w hw
    unfold unsigned IsInt signed
    split <;> omega
  have u8 : ∀ w, w < 256 ^ 8 → unsigned 18446744073709551616 (signed 18446744073709551616 w) = w ∧
      IsInt64 (signed 18446744073709551616 w) := by
    intro w hw
    unfold unsigned IsInt64 signed
    split <;> omega
  subst e1
  subst e2
  refine ⟨rfl, rfl, (u4 _ l1).2, l2, l3, (u8 _ l4).2, (u8 _ l5).2, (u8 _ l6).2, ?_⟩
  dsimp only
  rw [(u4 _ l1).1, (u8 _ l4).1, (u8 _ l5).1, (u8 _ l6).1]
  simp only [List.append_assoc]
  rw [← r6, ← r5, ← r4, ← r3, ← r2, ← r1]

theorem headerRead_inv {s s' : Strm} {h : Header} (hs : headerRead s = .ok (some h, s')) (c1 : h.fstType = [99, 111,
  110, 115, 116])
    (c2 : h.arcType = [115, 116, 97, 110, 100, 97, 114, 100]) : HeaderFits h ∧ s.rest = headerBytes h ++ s'.rest := by
  rw [headerRead_eq] at hs
  split at hs
  · cases hs
  rename_i hm
  have hm := Decidable.of_not_not hm
  unfold headerRest at hs
  obtain ⟨⟨f, s1⟩, h1, hs⟩ := bind_ok hs
  obtain ⟨⟨a, s2⟩, h2, hs⟩ := bind_ok hs
  dsimp only at h2 hs
  have m2 := (words_mono hs).1
  have m1 := string_mono h2 m2
  have m0 := string_mono h1 m1
  obtain ⟨e1, e2, i1, i2, i3, i4, i5, i6, r3⟩ := words_inv hs
  subst e1
  subst e2
  obtain ⟨r0, _⟩ := word_inv m0
  have r1 := string_inv h1 m1 (by rw [c1]; simp)
  have r2 := string_inv h2 m2 (by rw [c2]; simp)
  refine ⟨⟨by rw [c1]; decide, by rw [c2]; decide, i1, i2, i3, i4, i5, i6⟩, ?_⟩
  rw [r0, hm, r1, r2, r3]
  unfold headerBytes
  simp only [List.append_assoc]

theorem symbols_inv : ∀ {n : Nat} {seen : List Str} {s s' : Strm}, symbolLoop n seen s = .ok s' → s'.fail = false →
    ∃ p, s.rest = p ++ s'.rest
  | 0, _, s, s', hs, _ => by
    injection hs with hs
    exact ⟨[], by rw [hs]; rfl⟩
  | n + 1, seen, s, s', hs, hf => by
    rw [symbolLoop] at hs
    obtain ⟨⟨x, s1⟩, h1, hs⟩ := bind_ok hs
    dsimp only at hs
    split at hs
    · rename_i hk
      injection hs with hs
      subst hs
      rw [hf] at hk
      cases hk
    rename_i hk
    have hk := Bool.eq_false_iff.2 hk
    obtain ⟨seen', h2, hs⟩ := bind_ok hs
    obtain ⟨p, hp⟩ := symbols_inv hs hf
    obtain ⟨r1, _⟩ := word_inv hk
    have hc := chars_inv h1 (word_mono hk)
    obtain ⟨r2, _⟩ := word_inv (chars_mono h1 (word_mono hk))
    exact ⟨_, by rw [r2, hc.1, r1, hp]; simp only [← List.append_assoc]; rfl⟩

theorem table_inv {s s' : Strm} {flag : Bool} (hs : readTable flag s = .ok s') (hf : s'.fail = false) :
    ∃ p, s.rest = p ++ s'.rest ∧ (flag = false → p = []) := by
  cases flag with
  | false =>
    injection hs with hs
    exact ⟨[], by rw [hs]; rfl, fun _ => rfl⟩
  | true =>
    change readSymbols s = _ at hs
    unfold readSymbols at hs
    dsimp only at hs
    split at hs
    · rename_i hk
      injection hs with hs
      subst hs
      rw [hf] at hk
      cases hk
    rename_i m1
    have m1 := Bool.eq_false_iff.2 m1
    obtain ⟨⟨x, s1⟩, h1, hs⟩ := bind_ok hs
    dsimp only at hs
    split at hs
    · rename_i hk
      injection hs with hs
      subst hs
      rw [hf] at hk
      cases hk
    rename_i m4
    have m4 := Bool.eq_false_iff.2 m4
    have m3 := word_mono m4
    have m2 := word_mono m3
    obtain ⟨r1, _⟩ := word_inv m1
    obtain ⟨r2, _⟩ := word_inv (chars_mono h1 m2)
    have hc := chars_inv h1 m2
    obtain ⟨r3, _⟩ := word_inv m3
    obtain ⟨r4, _⟩ := word_inv m4
    obtain ⟨p, hp⟩ := symbols_inv hs hf
    exact ⟨_, by rw [r1, r2, hc.1, r3, r4, hp]; simp only [← List.append_assoc]; rfl, fun h => by cases h⟩

theorem alignLoop_inv : ∀ {n : Nat} {s : Strm}, (alignLoop n s).2.fail = false → ∃ p,
  s.rest = p ++ (alignLoop n s).2.rest
  | 0, _, _ => ⟨[], rfl⟩
  | n + 1, s, h => by
    have n1 : ¬ s.fail = true := by
      intro hf
      rw [alignLoop_failed hf] at h
      cases h
    have e1 : alignLoop (n + 1) s = if s.pos % 16 = 0 then (true, s) else alignLoop n (s.read 1).2 := by
      rw [alignLoop, if_neg n1]
    rw [e1] at h ⊢
    split
    · exact ⟨[], rfl⟩
    · rename_i hp
      rw [if_neg hp] at h
      obtain ⟨p, h1⟩ := alignLoop_inv h
      have hm : (s.read 1).2.fail = false := by
        cases hf : (s.read 1).2.fail with
        | false => rfl
        | true =>
          rw [alignLoop_failed hf] at h
          exact h
      obtain ⟨h2, _⟩ := read_inv hm
      exact ⟨(s.read 1).1 ++ p, by rw [List.append_assoc, ← h1, ← h2]⟩

theorem readAlign_inv {h : Header} {s : Strm} (hs : (readAlign h s).2.fail = false) :
    ∃ p, s.rest = p ++ (readAlign h s).2.rest := by
  unfold readAlign at hs ⊢
  split
  · rename_i hc
    rw [if_pos hc] at hs
    exact alignLoop_inv hs
  · exact ⟨[], rfl⟩

theorem chunks_inv : ∀ {fuel n : Nat} {s s' : Strm} {x : Str}, readChunks fuel n s = .ok (some x, s') →
    s.rest = x ++ s'.rest ∧ x.length = n
  | _, 0, s, s', x, hs => by
    rw [readChunks] at hs
    injection hs with hs
    injection hs with h1 h2
    injection h1 with h1
    subst h1
    subst h2
    exact ⟨rfl, rfl⟩
  | 0, n + 1, s, s', x, hs => by
    rw [readChunks] at hs
    cases hs
  | fuel + 1, n + 1, s, s', x, hs => by
    rw [readChunks] at hs
    rotate_left
    · intro h
      cases h
    split at hs
    · cases hs
    rename_i hr
    have hr := Bool.eq_false_iff.2 hr
    obtain ⟨⟨y, s1⟩, h1, h2⟩ := bind_ok hs
    dsimp only at h2
    injection h2 with h2
    injection h2 with h2 h3
    subst h3
    cases y with
    | none => cases h2
    | some y =>
      injection h2 with h2
      subst h2
      obtain ⟨h3, h4⟩ := chunks_inv h1
      obtain ⟨h5, h6⟩ := read_inv hr
      rw [List.length_append, h4, h6, List.append_assoc, ← h3, ← h5]
      exact ⟨rfl, by omega⟩

theorem map_inv {s s' : Strm} {n : Nat} {x : Str} (hs : map n s = .ok (some x, s')) :
    s.rest = x ++ s'.rest ∧ x.length = n := by
  unfold map at hs
  by_cases h0 : n = 0
  · rw [if_pos h0] at hs
    injection hs with hs
    injection hs with h1 h2
    injection h1 with h1
    subst h1
    subst h2
    exact ⟨rfl, h0.symm⟩
  · rw [if_neg h0] at hs
    split at hs
    · cases hs
    split at hs
    · split at hs <;> cases hs
    exact chunks_inv hs

/-- A file that is accepted consists of header, tables, padding, states, padding, arcs and anything. -/
theorem impl_inv {s s' : Strm} {f : ConstFst} (hs : implRead s = .ok (some f, s')) :
    ∃ h tables p1 p2, HeaderFits h ∧ h.fstType = [99, 111, 110, 115, 116] ∧ h.arcType = [115, 116, 97, 110, 100, 97,
  114, 100] ∧ 1 ≤ h.version ∧
      s.rest = headerBytes h ++ tables ++ p1 ++ f.states ++ p2 ++ f.arcs ++ s'.rest ∧
      f.start = signed 4294967296 (unsigned 4294967296 h.start) ∧
      f.states.length = unsigned 18446744073709551616 (signed 4294967296 (unsigned 4294967296 h.numStates) * 20) ∧
      f.arcs.length = unsigned 18446744073709551616 h.numArcs * 16 % 18446744073709551616 ∧
      (h.flags % 4 = 0 → tables = []) := by
  unfold implRead at hs
  obtain ⟨⟨x, s1⟩, h1, hs⟩ := bind_ok hs
  cases x with
  | none => cases hs
  | some h =>
    dsimp only at hs
    obtain ⟨q1, q2, k1, c1, c2, c3, k2, k3⟩ := readHeader_parts h1
    obtain ⟨x1, s2, x2, a1, b1, f1, a2, b2, f2, hf⟩ := body_parts hs
    have n1 := map_mono b1 f1
    have n2 := map_mono b2 f2
    have m3 : s1.fail = false := by
      cases hf : s1.fail with
      | false => rfl
      | true =>
        rw [readAlign_failed hf] at n1
        exact n1
    have m2 := table_mono k3 m3
    obtain ⟨hfit, r1⟩ := headerRead_inv k1 c1 c2
    obtain ⟨t1, r2, z1⟩ := table_inv k2 m2
    obtain ⟨t2, r3, z2⟩ := table_inv k3 m3
    obtain ⟨p1, r4⟩ := readAlign_inv n1
    obtain ⟨r5, l1⟩ := map_inv b1
    obtain ⟨p2, r6⟩ := readAlign_inv n2
    obtain ⟨r7, l2⟩ := map_inv b2
    refine ⟨h, t1 ++ t2, p1, p2, hfit, c1, c2, c3, ?_, by rw [hf], by rw [hf]; exact l1, by rw [hf]; exact l2, ?_⟩
    · rw [r1, r2, r3, r4, r5, r6, r7, hf]
      simp only [List.append_assoc]
    · intro h0
      rw [z1 (decide_eq_false (by omega)), z2 (decide_eq_false (by omega))]
      rfl

end Verif.Hclg
