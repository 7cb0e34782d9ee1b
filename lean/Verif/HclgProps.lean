import Verif.HclgRead
import Verif.HclgAccept

/-!
# C92: what is read from the file of the decoding graph
-/

namespace Verif.Hclg

open Verif Verif.Hclg.Spec

/-! ## Graphs that are written -/

theorem writeHeader_fits {g : Source} (hg : Fits g) (align : Bool) {properties : Nat}
    (hp : properties < 18446744073709551616) (i o : Option Table) : HeaderFits (writeHeader align properties i o g) where
  fstType := show [99, 111, 110, 115, 116].length < 2147483648 by decide
  arcType := show [115, 116, 97, 110, 100, 97, 114, 100].length < 2147483648 by decide
  version := by
    unfold writeHeader IsInt
    dsimp only
    split <;> omega
  flags := by
    unfold writeHeader
    dsimp only
    split <;> split <;> split <;> omega
  properties := hp
  start := by
    have h := hg.start
    unfold IsInt at h
    unfold writeHeader IsInt64
    dsimp only
    omega
  numStates := by
    have h := hg.states
    unfold writeHeader IsInt64
    dsimp only
    omega
  numArcs := by
    have h := hg.arcs
    unfold writeHeader IsInt64
    dsimp only
    omega

theorem write_eq (align : Bool) (properties : Nat) (i o : Option Table) (g : Source) {h : Header} {head top : List UInt8}
    (hh : h = writeHeader align properties i o g)
    (h1 : head = headerBytes h ++ tableBytes i ++ tableBytes o)
    (h2 : top = head ++ pad h head.length ++ statesBytes 0 g.states) :
    write align properties i o g = top ++ pad h top.length ++ arcsBytes g.states := by
  have hpad : ∀ p, pad h p = if align then padding p else [] := by
    intro p
    unfold pad
    rw [hh]
    unfold writeHeader
    cases align with
    | true => rw [if_pos (.inl rfl), if_pos rfl]
    | false =>
      have hc : ¬ ((if false = true then (1 : Int) else 2) = 1 ∨ ((if i.isSome = true then 1 else 0) +
          (if o.isSome = true then 2 else 0) + (if false = true then 4 else 0)) / 4 % 2 = 1) := by
        cases i.isSome <;> cases o.isSome <;> decide
      rw [if_neg hc, if_neg Bool.false_ne_true]
  have e : write align properties i o g = if align then
      (head ++ padding head.length ++ statesBytes 0 g.states) ++
        padding (head ++ padding head.length ++ statesBytes 0 g.states).length ++ arcsBytes g.states
      else head ++ statesBytes 0 g.states ++ arcsBytes g.states := by
    rw [h1, hh]
    rfl
  rw [e, h2, hpad, hpad]
  cases align with
  | true =>
    rw [if_pos rfl, if_pos rfl, if_pos rfl]
  | false =>
    rw [if_neg Bool.false_ne_true, if_neg Bool.false_ne_true, if_neg Bool.false_ne_true, List.append_nil,
  List.append_nil]

theorem impl_write {g : Source} (hg : Fits g) (align : Bool) {properties : Nat} (hp : properties < 18446744073709551616)
    {i o : Option Table} (hi : ∀ t ∈ i, TableFits t) (ho : ∀ t ∈ o, TableFits t) (rest : List UInt8) :
    implRead ⟨write align properties i o g ++ rest, 0, false⟩ =
      .ok (some g.image, ⟨rest, (write align properties i o g).length, false⟩) := by
  obtain ⟨h, hh⟩ : ∃ h, h = writeHeader align properties i o g := ⟨_, rfl⟩
  obtain ⟨head, h1⟩ : ∃ head, head = headerBytes h ++ tableBytes i ++ tableBytes o := ⟨_, rfl⟩
  obtain ⟨top, h2⟩ : ∃ top, top = head ++ pad h head.length ++ statesBytes 0 g.states := ⟨_, rfl⟩
  rw [write_eq align properties i o g hh h1 h2]
  have hn : h.numStates = (g.states.length : Nat) := by rw [hh]; rfl
  have hm : h.numArcs = ((g.states.map (·.2)).flatten.length : Nat) := by rw [hh]; rfl
  have hs := hg.states
  have ha := hg.arcs
  have hflags : h.flags = (if i.isSome then 1 else 0) + (if o.isSome then 2 else 0) + (if align then 4 else 0) := by rw [hh]; rfl
  have hstart : h.start = g.start := by rw [hh]; rfl
  have hv : 1 ≤ h.version := by
    rw [hh]
    unfold writeHeader
    dsimp only
    split <;> omega
  rw [read_file (h := h) (by rw [hh]; exact writeHeader_fits hg align hp i o) (by rw [hh]; rfl) (by rw [hh]; rfl) hv
    (by rw [hflags]; cases i.isSome <;> cases o.isSome <;> cases align <;> decide)
    (by rw [hflags]; cases i.isSome <;> cases o.isSome <;> cases align <;> decide) hi ho h1 h2
    (by omega) (by rw [statesBytes_length]; omega) (by omega) (by rw [arcsBytes_length]; omega),
    hstart, signed_unsigned4 hg.start.1 hg.start.2]
  rfl

theorem read_of_impl {bs : List UInt8} {x : Option ConstFst} {s : Strm} (h : implRead ⟨bs, 0, false⟩ = .ok (x, s)) :
    read bs = .ok x := by
  unfold read
  rw [h]
  rfl

theorem impl_of_read {bs : List UInt8} {e : Fault} (h : read bs = .error e) : implRead ⟨bs, 0, false⟩ = .error e := by
  unfold read at h
  generalize implRead ⟨bs, 0, false⟩ = q at h
  cases q with
  | error e' =>
    injection h with h
    rw [h]
  | ok v => cases h

/-- **A graph is read as it was written**: start state, final weights and arcs of all states in order, whatever the
header says about properties, with and without alignment and symbol tables, and whatever follows in the file. -/
theorem C92_round_trip {g : Source} (hg : Fits g) (align : Bool) {properties : Nat} (hp : properties < 18446744073709551616)
    {i o : Option Table} (hi : ∀ t ∈ i, TableFits t) (ho : ∀ t ∈ o, TableFits t) (rest : List UInt8) :
    ∃ f, read (write align properties i o g ++ rest) = .ok (some f) ∧ f.start = g.start ∧
      ∀ (s : Nat) (final : Nat) (arcs : List Arc), g.states[s]? = some (final, arcs) →
        finalAt f s = .ok final ∧ arcsAt f s = .ok arcs :=
  ⟨g.image, read_of_impl (impl_write hg align hp hi ho rest), rfl,
    fun _ _ _ h => ⟨finalAt_image hg h, arcsAt_image hg h⟩⟩

/-! ## Files that are cut off -/

/-- **What is left of a file never gives another graph**: if a file is accepted, then a part of it from the beginning
gives the same graph, or it is refused, or a character that is not initialised is copied. -/
theorem C92_same_or_refused {part cut : List UInt8} {f : ConstFst} (h : read (part ++ cut) = .ok (some f)) :
    read part = .ok (some f) ∨ read part = .ok none ∨ read part = .error .ub := by
  unfold read at h
  obtain ⟨⟨x, s'⟩, h1, h2⟩ := bind_ok h
  injection h2 with h2
  dsimp only at h2
  subst h2
  rcases impl_sim (s := ⟨part ++ cut, 0, false⟩) (t := ⟨part, 0, false⟩) ⟨rfl, rfl, rfl, rfl⟩ h1 with ⟨t', e,
  _⟩ | ⟨t', e⟩ | e
  · exact .inl (read_of_impl e)
  · exact .inr (.inl (read_of_impl e))
  · right; right
    unfold read
    rw [e]
    rfl

/-- **No graph file that was cut off is accepted.** -/
theorem C92_cut {g : Source} (hg : Fits g) (align : Bool) {properties : Nat} (hp : properties < 18446744073709551616)
    {i o : Option Table} (hi : ∀ t ∈ i, TableFits t) (ho : ∀ t ∈ o, TableFits t) {n : Nat}
    (hn : n < (write align properties i o g).length) :
    read ((write align properties i o g).take n) = .ok none ∨ read ((write align properties i o g).take n) = .error .ub := by
  have h := impl_write hg align hp hi ho []
  rw [List.append_nil] at h
  generalize write align properties i o g = file at h hn
  rcases impl_sim (cut := file.drop n) (s := ⟨file, 0, false⟩) (t := ⟨file.take n, 0, false⟩)
    ⟨(List.take_append_drop n file).symm, rfl, rfl, rfl⟩ h with
    ⟨t', _, e⟩ | ⟨t', e⟩ | e
  · have h1 := congrArg List.length e.rest
    rw [List.length_append, List.length_drop, List.length_nil] at h1
    omega
  · exact .inl (read_of_impl e)
  · right
    unfold read
    rw [e]
    rfl

/-- The first 25 bytes of a file. -/
def names : List UInt8 := leBytes 4 kFstMagicNumber ++ stringBytes [99, 111, 110, 115, 116] ++ stringBytes [115, 116,
  97, 110, 100, 97, 114, 100]

theorem headerRead_names (r : List UInt8) :
    headerRead ⟨names ++ r, 0, false⟩ = headerWords [99, 111, 110, 115, 116] [115, 116, 97, 110, 100, 97, 114,
  100] ⟨r, 25, false⟩ := by
  rw [headerRead_eq]
  unfold names
  rw [List.append_assoc, List.append_assoc, readWord_leBytes (by decide)]
  dsimp only
  rw [if_neg (fun h => h rfl)]
  unfold headerRest
  rw [readString_append (by decide)]
  simp only [ok_bind]
  rw [readString_append (by decide)]
  rfl

theorem read_names : ∀ n < 25, read (names.take n) =
    if (5 ≤ n ∧ n ≤ 12) ∨ (14 ≤ n ∧ n ≤ 24) then .error .ub else .ok none := by
  decide +kernel

theorem impl_names {r cut : List UInt8} {f : ConstFst} {s' : Strm} (hs : implRead ⟨names ++ r ++ cut, 0,
  false⟩ = .ok (some f, s'))
    (hflags : ∀ h s, headerRead ⟨names ++ r ++ cut, 0, false⟩ = .ok (some h, s) → h.flags % 4 = 0) :
    implRead ⟨names ++ r, 0, false⟩ ≠ .error .ub := by
  unfold implRead at hs ⊢
  obtain ⟨⟨x, s1⟩, h1, hs⟩ := bind_ok hs
  cases x with
  | none => cases hs
  | some h =>
    dsimp only at hs
    obtain ⟨q1, q2, k1, c1, c2, c3, k2, k3⟩ := readHeader_parts h1
    have h0 := hflags h q1 k1
    rw [show decide (h.flags % 2 = 1) = false from decide_eq_false (by omega)] at k2
    rw [show decide (h.flags / 2 % 2 = 1) = false from decide_eq_false (by omega)] at k3
    injection k2 with k2
    injection k3 with k3
    subst k2
    subst k3
    rw [List.append_assoc, headerRead_names] at k1
    have k1' := k1
    rcases words_sim (cut := cut) (s := ⟨r ++ cut, 25, false⟩) (t := ⟨r, 25, false⟩) ⟨rfl, rfl, rfl, rfl⟩ k1 with ⟨t',
  e, k⟩ | ⟨t', e⟩
    · rw [← headerRead_names] at e
      rw [readHeader_of e c1 c2 c3 (s2 := t') (s' := t')
        (by rw [show decide (h.flags % 2 = 1) = false from decide_eq_false (by omega)]; rfl)
        (by rw [show decide (h.flags / 2 % 2 = 1) = false from decide_eq_false (by omega)]; rfl)]
      simp only [ok_bind]
      rcases body_sim k hs with ⟨t2, e2, _⟩ | ⟨t2, e2⟩
      · rw [e2]
        intro h
        cases h
      · rw [e2]
        intro h
        cases h
    · rw [← headerRead_names] at e
      unfold readHeader
      rw [e]
      intro h
      cases h

theorem write_names (align : Bool) (properties : Nat) (g : Source) : ∃ r,
  write align properties none none g = names ++ r := by
  have h : ∃ r, headerBytes (writeHeader align properties none none g) = names ++ r := by
    unfold headerBytes
    exact ⟨_, by
      unfold names
      simp only [List.append_assoc]
      rfl⟩
  obtain ⟨r, h⟩ := h
  rw [write_eq align properties none none g rfl rfl rfl, List.append_assoc, List.append_assoc, List.append_assoc,
    List.append_assoc, List.append_assoc]
  generalize hq : headerBytes (writeHeader align properties none none g) = q at h
  rw [h, List.append_assoc]
  exact ⟨_, rfl⟩

/-- **Where a file without tables may be cut**: a file that ends inside of the two names of types or in the length of one of them is
undefined behaviour; all others are refused. -/
theorem C92_cut_exact {g : Source} (hg : Fits g) (align : Bool) {properties : Nat} (hp : properties < 18446744073709551616)
    {n : Nat} (hn : n < (write align properties none none g).length) :
    read ((write align properties none none g).take n) =
      if (5 ≤ n ∧ n ≤ 12) ∨ (14 ≤ n ∧ n ≤ 24) then .error .ub else .ok none := by
  have h1 := C92_cut hg align hp (i := none) (o := none) (fun _ h => by cases h) (fun _ h => by cases h) hn
  have h2 := impl_write hg align hp (i := none) (o := none) (fun _ h => by cases h) (fun _ h => by cases h) []
  have h3 := writeHeader_fits hg align hp none none
  have h4 : ∀ h s, headerRead ⟨write align properties none none g, 0, false⟩ = .ok (some h, s) → h.flags % 4 = 0 := by
    intro h s e
    rw [write_eq align properties none none g rfl rfl rfl, List.append_assoc, List.append_assoc, List.append_assoc,
      List.append_assoc, List.append_assoc, headerRead_append h3] at e
    injection e with e
    injection e with e
    injection e with e
    rw [← e]
    show (0 + 0 + (if align = true then 4 else 0)) % 4 = 0
    cases align <;> decide
  obtain ⟨r, hr⟩ := write_names align properties g
  rw [List.append_nil] at h2
  rw [hr] at h1 h2 h4 hn ⊢
  have h25 : names.length = 25 := by decide
  by_cases hlt : n < 25
  · rw [List.take_append_of_le_length (by omega)]
    exact read_names n hlt
  · rw [if_neg (by omega)]
    rcases h1 with h1 | h1
    · exact h1
    · exfalso
      have e : (names ++ r).take n = names ++ r.take (n - 25) := by
        rw [List.take_append, List.take_of_length_le (by omega), h25]
      rw [e] at h1
      have e2 : names ++ r = names ++ r.take (n - 25) ++ r.drop (n - 25) := by
        rw [List.append_assoc, List.take_append_drop]
      rw [e2] at h2 h4
      exact impl_names h2 h4 (impl_of_read h1)

/-! ## Files that are accepted -/

/-- **What a file that is accepted looks like**: magic number, the types `const` and `standard`, a version that is not
less than 1, and the states and arcs of the graph are bytes of the file, one behind the other, of the length that the
header tells.  Graphs of other types are refused. -/
theorem C92_accepted {file : List UInt8} {f : ConstFst} (h : read file = .ok (some f)) :
    ∃ (version start numStates numArcs : Int) (flags properties : Nat) (a b c : List UInt8),
      file = [214, 253, 178, 126] ++ [5, 0, 0, 0] ++ [99, 111, 110, 115, 116] ++ [8, 0, 0, 0] ++ [115, 116, 97, 110,
  100, 97, 114, 100] ++
        leBytes 4 (unsigned 4294967296 version) ++ leBytes 4 flags ++ leBytes 8 properties ++
        leBytes 8 (unsigned 18446744073709551616 start) ++ leBytes 8 (unsigned 18446744073709551616 numStates) ++
        leBytes 8 (unsigned 18446744073709551616 numArcs) ++ a ++ f.states ++ b ++ f.arcs ++ c ∧
      1 ≤ version ∧ IsInt version ∧ IsInt64 start ∧ IsInt64 numStates ∧ IsInt64 numArcs ∧
      (IsInt start → f.start = start) ∧
      (0 ≤ numStates → numStates < 2147483648 → (f.states.length : Int) = 20 * numStates) ∧
      (0 ≤ numArcs → numArcs < 4294967296 → (f.arcs.length : Int) = 16 * numArcs) := by
  unfold read at h
  obtain ⟨⟨x, s'⟩, h1, h2⟩ := bind_ok h
  injection h2 with h2
  dsimp only at h2
  subst h2
  obtain ⟨hd, tables, p1, p2, hf, c1, c2, c3, e, e1, e2, e3, _⟩ := impl_inv h1
  dsimp only at e
  refine ⟨hd.version, hd.start, hd.numStates, hd.numArcs, hd.flags, hd.properties, tables ++ p1, p2, s'.rest, ?_, c3,
    hf.version, hf.start, hf.numStates, hf.numArcs, ?_, ?_, ?_⟩
  · rw [e]
    unfold headerBytes
    rw [c1, c2]
    simp only [List.append_assoc]
    rfl
  · intro hs
    rw [e1, signed_unsigned4 hs.1 hs.2]
  · intro h1 h2
    rw [e2, signed_unsigned4 (by omega) h2, unsigned_nat (n := 20 * hd.numStates.toNat) (by omega) (by omega)]
    omega
  · intro h1 h2
    rw [e3, unsigned_nat (n := hd.numArcs.toNat) (by omega) (by omega)]
    omega

/-! ## What is not checked -/

/-- The header of a graph with `n` states and `m` arcs as `ConstFst` writes it without alignment. -/
def plain (start n m : Int) : Header := ⟨[99, 111, 110, 115, 116], [115, 116, 97, 110, 100, 97, 114, 100], 2, 0, 0,
  start, n, m⟩

theorem plain_fits {start n m : Int} (hs : IsInt64 start) (hn : IsInt64 n) (hm : IsInt64 m) : HeaderFits (plain start n m) :=
  ⟨show [99, 111, 110, 115, 116].length < 2147483648 by decide, show [115, 116, 97, 110, 100, 97, 114,
  100].length < 2147483648 by decide,
    show IsInt 2 by unfold IsInt; omega, show 0 < 4294967296 by decide, show 0 < 18446744073709551616 by decide, hs,
  hn, hm⟩

/-- **The contents are not checked**: whatever the bytes of states and arcs are, the file is accepted. -/
theorem C92_unchecked {start : Int} (hs : IsInt start) {n m : Nat} (hn : n < 2147483648) (hm : m < 4294967296)
    {states arcs : List UInt8} (h1 : states.length = 20 * n) (h2 : arcs.length = 16 * m) :
    read (headerBytes (plain start n m) ++ states ++ arcs) = .ok (some ⟨start, states, arcs⟩) := by
  have hf : HeaderFits (plain start n m) :=
    plain_fits (by unfold IsInt at hs; unfold IsInt64; omega) (by unfold IsInt64; omega) (by unfold IsInt64; omega)
  have hp : ∀ p, pad (plain start n m) p = [] := fun p => by
    unfold pad
    rw [if_neg (show ¬ ((plain _ _ _).version = 1 ∨ (plain _ _ _).flags / 4 % 2 = 1) from
    show ¬ ((2 : Int) = 1 ∨ 0 / 4 % 2 = 1) by decide)]
  have h := read_file hf rfl rfl (show (1 : Int) ≤ 2 by decide) (i := none) (o := none)
    (decide_eq_false (show ¬ 0 % 2 = 1 by decide)).symm (decide_eq_false (show ¬ 0 / 2 % 2 = 1 by decide)).symm (fun _ h => by cases h) (fun _ h => by cases h)
    (S := states) (A := arcs) (rest := []) rfl rfl (by show (n : Int) < 2147483648; omega)
    (by show (states.length : Int) = 20 * (n : Int); omega) (by show (m : Int) < 4294967296; omega)
    (by show (arcs.length : Int) = 16 * (m : Int); omega)
  rw [hp, hp] at h
  simp only [tableBytes, Option.map_none, Option.getD_none, List.append_nil] at h
  rw [read_of_impl h]
  show Except.ok (some (⟨signed 4294967296 (unsigned 4294967296 start), states, arcs⟩ : ConstFst)) = _
  rw [signed_unsigned4 hs.1 hs.2]

/-- **A state outside of the graph is undefined behaviour**, whether it is the start state or the end of an arc: the
array is read where it does not exist. -/
theorem C92_outside_ub {g : Source} {align : Bool} {properties : Nat} (hg : Fits g) (hp : properties < 18446744073709551616)
    {s : Int} (h : ¬ IsState g.states.length s) :
    ∃ f,
  read (write align properties none none g) = .ok (some f) ∧ finalAt f s = .error .ub ∧ arcsAt f s = .error .ub := by
  have h1 := impl_write hg align hp (i := none) (o := none) (fun _ h => by cases h) (fun _ h => by cases h) []
  rw [List.append_nil] at h1
  refine ⟨g.image, read_of_impl h1, ?_, ?_⟩
  · unfold finalAt
    rw [stateAt_outside g h]
    rfl
  · unfold arcsAt
    rw [stateAt_outside g h]
    rfl

theorem plain_align (start n m : Int) (s : Strm) : readAlign (plain start n m) s = (true, s) := by
  unfold readAlign
  rw [if_neg (show ¬ ((plain _ _ _).version = 1 ∨ (plain _ _ _).flags / 4 % 2 = 1) from
    show ¬ ((2 : Int) = 1 ∨ 0 / 4 % 2 = 1) by decide)]

theorem header_plain {start n m : Int} (hs : IsInt64 start) (hn : IsInt64 n) (hm : IsInt64 m) (rest : List UInt8) :
    implRead ⟨headerBytes (plain start n m) ++ rest, 0, false⟩ =
      readBody (plain start n m) ⟨rest, (headerBytes (plain start n m)).length, false⟩ := by
  have hf := plain_fits hs hn hm
  have h := readHeader_append hf rfl rfl (show (1 : Int) ≤ 2 by decide) (i := none) (o := none)
    (decide_eq_false (show ¬ 0 % 2 = 1 by decide)).symm (decide_eq_false (show ¬ 0 / 2 % 2 = 1 by decide)).symm (fun _ h => by cases h)
    (fun _ h => by cases h) rest
  simp only [tableBytes, Option.map_none, Option.getD_none, List.append_nil, List.nil_append] at h
  unfold implRead
  rw [h]
  rfl

theorem unsigned_neg {m k : Nat} {x : Int} (h : x = -(k : Int)) (h0 : 0 < k) (hk : k ≤ m) : unsigned m x = m - k := by
  subst h
  unfold unsigned
  rw [← Int.add_emod_right, Int.emod_eq_of_lt (by omega) (by omega)]
  omega

/-- **A wrong number of states is an exception**: if bit 31 of the number is set, `operator new` is called with almost
2^64 bytes, and nobody catches what it throws. -/
theorem C92_states_throw {start m n : Int} (hs : IsInt64 start) (hm : IsInt64 m) (hn : IsInt64 n)
    (h31 : 2147483648 ≤ n % 4294967296) (rest : List UInt8) :
    read (headerBytes (plain start n m) ++ rest) = .error .throw := by
  unfold read
  rw [header_plain hs hn hm]
  have hsz : ∃ j : Nat, 1 ≤ j ∧ j ≤ 2147483648 ∧
      unsigned 18446744073709551616 (signed 4294967296 (unsigned 4294967296 n) * 20) = 18446744073709551616 - 20 * j := by
    refine ⟨4294967296 - (n % 4294967296).toNat, by omega, by omega, ?_⟩
    have e : signed 4294967296 (unsigned 4294967296 n) = n % 4294967296 - 4294967296 := by
      unfold signed unsigned
      split <;> omega
    rw [e]
    have hlt : n % 4294967296 < 4294967296 := Int.emod_lt_of_pos n (by decide)
    generalize n % 4294967296 = r at h31 hlt ⊢
    rw [unsigned_neg (k := 20 * (4294967296 - r.toNat)) (by omega) (by omega) (by omega)]
  obtain ⟨j, j1, j2, e⟩ := hsz
  unfold readBody
  rw [plain_align]
  dsimp only
  rw [if_neg (by decide), show (plain start n m).numStates = n from rfl, e]
  unfold map
  rw [if_neg (by omega), Nat.mod_eq_of_lt (by omega), if_pos (by omega)]
  rfl

/-- **A wrong number of arcs overruns the heap**: with 2^60 - 1 arcs the size of the block wraps to 0, and the rest of
the file is written behind it. -/
theorem C92_arcs_overrun {start : Int} (hs : IsInt64 start) {n : Nat} (hn : n < 2147483648) {states rest : List UInt8}
    (h1 : states.length = 20 * n) (hr : rest ≠ []) :
    read (headerBytes (plain start n 1152921504606846975) ++ states ++ rest) = .error .ub := by
  unfold read
  rw [List.append_assoc, header_plain hs (by unfold IsInt64; omega) (by unfold IsInt64; omega)]
  generalize (headerBytes (plain start n 1152921504606846975)).length = p
  have hz : unsigned 18446744073709551616 (signed 4294967296 (unsigned 4294967296
      (plain start n 1152921504606846975).numStates) * 20) = states.length := by
    show unsigned 18446744073709551616 (signed 4294967296 (unsigned 4294967296 (n : Int)) * 20) = states.length
    rw [signed_unsigned4 (by omega) (by omega)]
    exact unsigned_nat (by omega) (by omega)
  unfold readBody
  rw [plain_align]
  dsimp only
  rw [if_neg (by decide), hz, map_append rfl (by omega)]
  simp only [ok_bind]
  rw [if_neg Bool.false_ne_true, plain_align]
  dsimp only
  have hk : unsigned 18446744073709551616 (plain start n 1152921504606846975).numArcs * 16 % 18446744073709551616 =
      18446744073709551600 := by
    show unsigned 18446744073709551616 1152921504606846975 * 16 % 18446744073709551616 = _
    decide +kernel
  rw [if_neg (by decide), hk]
  unfold map
  rw [if_neg (by decide), if_neg (by decide), if_pos (by decide), if_neg (by simp [hr])]
  rfl

/-! ## Examples -/

/-- A graph with two states. -/
def twoStates : Source := ⟨0, [(0, [⟨1, 2, 1065353216, 1⟩, ⟨0, 0, 0, 0⟩]), (1065353216, [])]⟩

theorem twoStates_fits : Fits twoStates :=
  ⟨by unfold IsInt; decide, by decide, by decide, by decide, fun st hst a ha => by
    simp only [twoStates, List.mem_cons, List.not_mem_nil, or_false] at hst
    rcases hst with rfl | rfl
    · simp only [List.mem_cons, List.not_mem_nil, or_false] at ha
      rcases ha with rfl | rfl <;> exact ⟨by unfold IsInt; decide, by unfold IsInt; decide, by decide,
  by unfold IsInt; decide⟩
    · cases ha⟩

/-- A table with one symbol. -/
def oneSymbol : Table := ⟨[119, 111, 114, 100, 115], 1, [([60, 101, 112, 115, 62], 0)]⟩

theorem oneSymbol_fits : TableFits oneSymbol :=
  ⟨by decide, by decide, fun q hq => by
    simp only [oneSymbol, List.mem_cons, List.not_mem_nil, or_false] at hq
    subst hq
    exact ⟨by decide, by unfold IsInt64; decide, by decide⟩⟩

/-- An aligned file with a table is read, and bytes behind it do not matter. -/
example : ∃ f, read (write true 5 (some oneSymbol) none twoStates ++ [1, 2, 3]) = .ok (some f) ∧ f.start = 0 ∧
    finalAt f 1 = .ok 1065353216 ∧ arcsAt f 0 = .ok [⟨1, 2, 1065353216, 1⟩, ⟨0, 0, 0, 0⟩] := by
  obtain ⟨f, h1, h2,
  h3⟩ := C92_round_trip twoStates_fits true (properties := 5) (by decide) (i := some oneSymbol) (o := none)
    (fun t ht => by injection ht with ht; rw [← ht]; exact oneSymbol_fits) (fun _ h => by cases h) [1, 2, 3]
  exact ⟨f, h1, h2, (h3 1 _ _ rfl).1, (h3 0 _ _ rfl).2⟩

/-- The same by running the model. -/
example : (write false 0 none none twoStates).length = 137 ∧ (write true 0 (some oneSymbol) none twoStates).length = 192 ∧
    read (write false 0 none none twoStates) = .ok (some twoStates.image) ∧
    read ((write false 0 none none twoStates).take 136) = .ok none ∧
    read ((write false 0 none none twoStates).take 12) = .error .ub := by decide +kernel

/-- The last byte is missing. -/
example : read ((write true 0 (some oneSymbol) none twoStates).take 191) = .ok none ∨
    read ((write true 0 (some oneSymbol) none twoStates).take 191) = .error .ub :=
  C92_cut twoStates_fits true (by decide) (fun t ht => by injection ht with ht; rw [← ht]; exact oneSymbol_fits)
    (fun _ h => by cases h) (by decide +kernel)

example : read ((write false 0 none none twoStates).take 30) = .ok none :=
  (C92_cut_exact twoStates_fits false (by decide) (n := 30) (by decide +kernel)).trans (by decide)

/-- A file with a part behind it that does not belong to it, cut in there: the same graph. -/
example : read (write false 0 none none twoStates ++ [1]) = .ok (some twoStates.image) :=
  (C92_same_or_refused (part := write false 0 none none twoStates ++ [1]) (cut := [2]) (f := twoStates.image)
    (by decide +kernel)).elim id (fun h => h.elim (fun h => absurd h (by decide +kernel)) (fun h => absurd h (by decide +kernel)))

/-- A graph of the type `vector` is refused. -/
example : ∀ f, read (leBytes 4 2125659606 ++ stringBytes [118, 101, 99, 116, 111, 114] ++ stringBytes [115, 116, 97,
  110, 100, 97, 114, 100] ++ List.replicate 40 1) ≠ .ok (some f) := by
  intro f h
  obtain ⟨_, _, _, _, _, _, _, _, _, h, _⟩ := C92_accepted h
  have := congrArg (fun l => l.drop 8 |>.take 1) h
  simp [leBytes, stringBytes] at this

/-- A graph without states that starts in the state 7 is accepted, and its start state does not exist. -/
example : read (headerBytes (plain 7 0 0) ++ [] ++ []) = .ok (some ⟨7, [], []⟩) ∧ arcsAt ⟨7, [], []⟩ 7 = .error .ub :=
  ⟨C92_unchecked (by unfold IsInt; decide) (by decide) (by decide) rfl rfl, by decide +kernel⟩

example : ∃ f,
  read (write true 0 none none twoStates) = .ok (some f) ∧ finalAt f 2 = .error .ub ∧ arcsAt f 2 = .error .ub :=
  C92_outside_ub twoStates_fits (by decide) (by unfold IsState; decide)

example : read (headerBytes (plain 0 (-1) 0) ++ []) = .error .throw :=
  C92_states_throw (by unfold IsInt64; decide) (by unfold IsInt64; decide) (by unfold IsInt64; decide) (by decide) []

example : read (headerBytes (plain 0 (0 : Nat) 1152921504606846975) ++ [] ++ [1]) = .error .ub :=
  C92_arcs_overrun (by unfold IsInt64; decide) (by decide) rfl (by simp)

end Verif.Hclg
