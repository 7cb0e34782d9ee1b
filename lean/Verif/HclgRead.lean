import Verif.HclgLemmas

/-!
# What is read from files with a header, states and arcs
-/

namespace Verif.Hclg

open Verif Verif.Hclg.Spec

/-- The padding in a file with this header. -/
def pad (h : Header) (pos : Nat) : List UInt8 := if h.version = 1 ∨ h.flags / 4 % 2 = 1 then padding pos else []

theorem align_pad (h : Header) (rest : List UInt8) (p : Nat) :
    readAlign h ⟨pad h p ++ rest, p, false⟩ = (true, ⟨rest, p + (pad h p).length, false⟩) := by
  unfold pad readAlign
  split
  · exact alignInput_append rest p
  · rfl

/-- The bytes of an optional table. -/
def tableBytes (t : Option Table) : List UInt8 := (t.map Table.bytes).getD []

theorem table_append {t : Option Table} (ht : ∀ x ∈ t, TableFits x) (rest : List UInt8) (p : Nat) :
    readTable t.isSome ⟨tableBytes t ++ rest, p, false⟩ = .ok ⟨rest, p + (tableBytes t).length, false⟩ := by
  cases t with
  | none => rfl
  | some x =>
    unfold readTable
    rw [if_pos Option.isSome_some]
    exact readSymbols_append (ht x rfl) rest p

theorem readHeader_append {h : Header} (hf : HeaderFits h) (h1 : h.fstType = [99, 111, 110, 115,
  116]) (h2 : h.arcType = [115, 116, 97, 110, 100, 97, 114, 100])
    (h3 : 1 ≤ h.version) {i o : Option Table} (hi : i.isSome = decide (h.flags % 2 = 1)) (ho : o.isSome = decide (h.flags / 2 % 2 = 1))
    (fi : ∀ x ∈ i, TableFits x) (fo : ∀ x ∈ o, TableFits x) (rest : List UInt8) :
    readHeader ⟨headerBytes h ++ (tableBytes i ++ (tableBytes o ++ rest)), 0, false⟩ =
      .ok (some h, ⟨rest, (headerBytes h ++ tableBytes i ++ tableBytes o).length, false⟩) := by
  unfold readHeader
  rw [headerRead_append hf]
  simp only [ok_bind]
  rw [if_neg (by rw [h1]; simp), if_neg (by rw [h2]; simp), if_neg (by omega)]
  rw [← hi, ← ho, table_append fi]
  simp only [ok_bind]
  rw [table_append fo]
  simp only [ok_bind]
  rw [List.length_append, List.length_append, Nat.zero_add]

theorem unsigned_nat {m n : Nat} {x : Int} (h : x = n) (hn : n < m) : unsigned m x = n := by
  subst h
  unfold unsigned
  rw [Int.emod_eq_of_lt (by omega) (by omega), Int.toNat_natCast]

/-- A file with a header, tables, states and arcs is read, whatever the bytes of states and arcs are. -/
theorem read_file {h : Header} (hf : HeaderFits h) (h1 : h.fstType = [99, 111, 110, 115, 116]) (h2 : h.arcType = [115,
  116, 97, 110, 100, 97, 114, 100])
    (h3 : 1 ≤ h.version) {i o : Option Table} (hi : i.isSome = decide (h.flags % 2 = 1)) (ho : o.isSome = decide (h.flags / 2 % 2 = 1))
    (fi : ∀ x ∈ i, TableFits x) (fo : ∀ x ∈ o, TableFits x) {S A rest head top : List UInt8}
    (hhead : head = headerBytes h ++ tableBytes i ++ tableBytes o) (htop : top = head ++ pad h head.length ++ S)
    (hn : h.numStates < 2147483648) (hS : (S.length : Int) = 20 * h.numStates)
    (hm : h.numArcs < 4294967296) (hA : (A.length : Int) = 16 * h.numArcs) :
    implRead ⟨top ++ pad h top.length ++ A ++ rest, 0, false⟩ =
      .ok (some ⟨signed 4294967296 (unsigned 4294967296 h.start), S, A⟩,
        ⟨rest, (top ++ pad h top.length ++ A).length, false⟩) := by
  have e0 : top ++ pad h top.length ++ A ++ rest = headerBytes h ++ (tableBytes i ++ (tableBytes o ++
      (pad h head.length ++ (S ++ (pad h top.length ++ (A ++ rest)))))) := by
    generalize pad h top.length = p2
    rw [htop, hhead]
    simp only [List.append_assoc]
  unfold implRead
  rw [e0, readHeader_append hf h1 h2 h3 hi ho fi fo, ← hhead]
  simp only [ok_bind]
  unfold readBody
  rw [align_pad]
  dsimp only
  have hs : unsigned 18446744073709551616 (signed 4294967296 (unsigned 4294967296 h.numStates) * 20) = S.length := by
    rw [signed_unsigned4 (by omega) hn]
    exact unsigned_nat (by omega) (by omega)
  have ha : unsigned 18446744073709551616 h.numArcs * 16 % 18446744073709551616 = A.length := by
    rw [unsigned_nat (n := h.numArcs.toNat) (by omega) (by omega)]
    omega
  rw [if_neg (by decide), hs, ha, map_append rfl (by omega)]
  simp only [ok_bind]
  rw [if_neg Bool.false_ne_true, show head.length + (pad h head.length).length + S.length = top.length by
    rw [htop, List.length_append, List.length_append], align_pad]
  dsimp only
  rw [if_neg (by decide), map_append rfl (by omega)]
  simp only [ok_bind]
  rw [if_neg Bool.false_ne_true, List.length_append, List.length_append]

/-! ## The bytes of states and arcs -/

theorem drop_past (x y : List UInt8) (j : Nat) : (x ++ y).drop (x.length + j) = y.drop j := by
  rw [← List.drop_drop, List.drop_left]


theorem stateBytes_length (pos : Nat) (st : Nat × List Arc) : (stateBytes pos st).length = 20 := by
  unfold stateBytes
  simp only [List.length_append, leBytes_length]

theorem statesBytes_length : ∀ (pos : Nat) (l : List (Nat × List Arc)), (statesBytes pos l).length = 20 * l.length
  | _, [] => rfl
  | pos, st :: l => by
    rw [statesBytes, List.length_append, stateBytes_length, statesBytes_length, List.length_cons]
    omega

theorem arcBytes_length (a : Arc) : (arcBytes a).length = 16 := by
  unfold arcBytes
  simp only [List.length_append, leBytes_length]

theorem flatArcs_length : ∀ (l : List Arc), (l.map arcBytes).flatten.length = 16 * l.length
  | [] => rfl
  | a :: l => by
    rw [List.map_cons, List.flatten_cons, List.length_append, arcBytes_length, flatArcs_length, List.length_cons]
    omega

theorem arcsBytes_length (l : List (Nat × List Arc)) : (arcsBytes l).length = 16 * (l.map (·.2)).flatten.length :=
  flatArcs_length _

/-- State number `i` in the bytes of the states. -/
theorem statesBytes_get : ∀ (l : List (Nat × List Arc)) (pos i : Nat) (st : Nat × List Arc), l[i]? = some st →
    ((statesBytes pos l).drop (20 * i)).take 20 = stateBytes (pos + ((l.take i).map (·.2)).flatten.length) st
  | [], _, _, _, h => by simp at h
  | st' :: l, pos, 0, st, h => by
    injection h with h
    subst h
    rw [statesBytes]
    show ((stateBytes pos st' ++ _).drop 0).take 20 = stateBytes (pos + 0) st'
    rw [List.drop_zero, Nat.add_zero, ← stateBytes_length pos st', List.take_left]
  | st' :: l, pos, i + 1, st, h => by
    rw [statesBytes, show 20 * (i + 1) = (stateBytes pos st').length + 20 * i by rw [stateBytes_length]; omega,
      drop_past, statesBytes_get l _ i st h]
    rw [List.take_succ_cons, List.map_cons, List.flatten_cons, List.length_append, Nat.add_assoc]

/-- Arc number `i` in the bytes of the arcs. -/
theorem flatArcs_get : ∀ (l : List Arc) (i : Nat) (a : Arc), l[i]? = some a →
    (((l.map arcBytes).flatten).drop (16 * i)).take 16 = arcBytes a
  | [], _, _, h => by simp at h
  | a' :: l, 0, a, h => by
    injection h with h
    subst h
    rw [List.map_cons, List.flatten_cons]
    show ((arcBytes a' ++ _).drop 0).take 16 = arcBytes a'
    rw [List.drop_zero, ← arcBytes_length a', List.take_left]
  | a' :: l, i + 1, a, h => by
    rw [List.map_cons, List.flatten_cons,
  show 16 * (i + 1) = (arcBytes a').length + 16 * i by rw [arcBytes_length]; omega,
      drop_past, flatArcs_get l i a h]

theorem take_word {k : Nat} (n : Nat) (rest : List UInt8) (hn : n < 256 ^ k) : le ((leBytes k n ++ rest).take k) = n := by
  have : (leBytes k n ++ rest).take k = leBytes k n := by
    have := List.take_left (l₁ := leBytes k n) (l₂ := rest)
    rwa [leBytes_length] at this
  rw [this, le_leBytes k n hn]

theorem drop_word (k n : Nat) (rest : List UInt8) (j : Nat) : (leBytes k n ++ rest).drop (k + j) = rest.drop j := by
  have := drop_past (leBytes k n) rest j
  rwa [leBytes_length] at this

theorem arc_word {a : Arc} (ha : ArcFits a) :
    (⟨signed 4294967296 (le ((arcBytes a).take 4)), signed 4294967296 (le (((arcBytes a).drop 4).take 4)),
      le (((arcBytes a).drop 8).take 4), signed 4294967296 (le (((arcBytes a).drop 12).take 4))⟩ : Arc) = a := by
  unfold arcBytes
  simp only [List.append_assoc]
  have e4 : ∀ (n : Nat) (rest : List UInt8), (leBytes 4 n ++ rest).drop 4 = rest := fun n rest => drop_word 4 n rest 0
  have e8 : ∀ (n m : Nat) (rest : List UInt8),
  (leBytes 4 n ++ (leBytes 4 m ++ rest)).drop 8 = rest := fun n m rest => by
    rw [show 8 = 4 + 4 from rfl, drop_word, e4]
  have e12 : ∀ (n m k : Nat) (rest : List UInt8),
  (leBytes 4 n ++ (leBytes 4 m ++ (leBytes 4 k ++ rest))).drop 12 = rest :=
    fun n m k rest => by rw [show 12 = 4 + 8 from rfl, drop_word, e8]
  rw [e4, e8, e12, take_word _ _ (unsigned4_lt _), take_word _ _ (unsigned4_lt _),
  take_word _ _ (show a.weight < 256 ^ 4 from ha.weight)]
  have := take_word (k := 4) (unsigned 4294967296 a.next) [] (unsigned4_lt _)
  rw [List.append_nil] at this
  rw [this, signed_unsigned4 ha.ilabel.1 ha.ilabel.2, signed_unsigned4 ha.olabel.1 ha.olabel.2,
    signed_unsigned4 ha.next.1 ha.next.2]

/-! ## Looking into a graph that was written -/

/-- What is read of a file that was written. -/
def Source.image (g : Source) : ConstFst := ⟨g.start, statesBytes 0 g.states, arcsBytes g.states⟩

theorem stateAt_image (g : Source) {i : Nat} {st : Nat × List Arc} (h : g.states[i]? = some st) :
    stateAt g.image i = .ok (stateBytes ((g.states.take i).map (·.2)).flatten.length st) := by
  have hi := (List.getElem?_eq_some_iff.1 h).1
  unfold stateAt
  rw [if_pos ⟨by omega, by
    show 20 * ((i : Int) + 1) ≤ (statesBytes 0 g.states).length
    rw [statesBytes_length]; omega⟩]
  show Except.ok (((statesBytes 0 g.states).drop (20 * (i : Int).toNat)).take 20) = _
  rw [Int.toNat_natCast, statesBytes_get _ 0 i st h, Nat.zero_add]

theorem stateAt_outside (g : Source) {s : Int} (h : ¬ IsState g.states.length s) : stateAt g.image s = .error .ub := by
  unfold stateAt
  rw [if_neg]
  intro hs
  apply h
  have : (g.image.states.length : Int) = 20 * g.states.length := by
    show ((statesBytes 0 g.states).length : Int) = _
    rw [statesBytes_length]; omega
  rw [this] at hs
  exact ⟨hs.1, by omega⟩

theorem finalAt_image {g : Source} (hf : Fits g) {i : Nat} {st : Nat × List Arc} (h : g.states[i]? = some st) :
    finalAt g.image i = .ok st.1 := by
  unfold finalAt
  rw [stateAt_image g h]
  simp only [ok_bind]
  unfold stateBytes
  simp only [List.append_assoc]
  rw [take_word _ _ (show st.1 < 256 ^ 4 from hf.final st (List.mem_of_getElem? h))]

theorem arcsFrom_image {g : Source} (hf : Fits g) : ∀ (l : List Arc) (i : Nat) (before behind : List Arc),
    (g.states.map (·.2)).flatten = before ++ l ++ behind → before.length = i → arcsFrom g.image l.length i = .ok l
  | [], _, _, _, _, _ => rfl
  | a :: l, i, before, behind, hg, hi => by
    have hget : (g.states.map (·.2)).flatten[i]? = some a := by
      rw [hg, List.append_assoc, List.getElem?_append_right (by omega), hi, Nat.sub_self]
      rfl
    have hlen := (List.getElem?_eq_some_iff.1 hget).1
    have ha : ArcFits a := by
      obtain ⟨as, h1, h2⟩ := List.mem_flatten.1 (List.mem_of_getElem? hget)
      obtain ⟨st, h3, rfl⟩ := List.mem_map.1 h1
      exact hf.arc st h3 a h2
    have h1 : arcAt g.image i = .ok a := by
      unfold arcAt
      have hl : g.image.arcs.length = 16 * (g.states.map (·.2)).flatten.length := arcsBytes_length _
      rw [if_pos (by omega)]
      have : (g.image.arcs.drop (16 * i)).take 16 = arcBytes a := flatArcs_get _ i a hget
      dsimp only
      rw [this, arc_word ha]
    rw [List.length_cons, arcsFrom, h1]
    simp only [ok_bind]
    rw [arcsFrom_image hf l (i + 1) (before ++ [a]) behind (by rw [hg]; simp) (by simp [hi])]
    rfl

theorem arcsAt_image {g : Source} (hf : Fits g) {i : Nat} {st : Nat × List Arc} (h : g.states[i]? = some st) :
    arcsAt g.image i = .ok st.2 := by
  have hi := (List.getElem?_eq_some_iff.1 h).1
  have hsplit : g.states = g.states.take i ++ st :: g.states.drop (i + 1) := by
    have h1 : g.states[i] = st := (List.getElem?_eq_some_iff.1 h).2
    rw [← h1, ← List.drop_eq_getElem_cons hi, List.take_append_drop]
  have harcs : (g.states.map (·.2)).flatten =
      ((g.states.take i).map (·.2)).flatten ++ st.2 ++ ((g.states.drop (i + 1)).map (·.2)).flatten := by
    conv => lhs; rw [hsplit]
    rw [List.map_append, List.flatten_append, List.map_cons, List.flatten_cons, List.append_assoc]
  have hlen : ((g.states.take i).map (·.2)).flatten.length + st.2.length ≤ (g.states.map (·.2)).flatten.length := by
    rw [harcs, List.length_append, List.length_append]
    omega
  have htot := hf.arcs
  unfold arcsAt
  rw [stateAt_image g h]
  simp only [ok_bind]
  unfold stateBytes
  simp only [List.append_assoc]
  have e4 : ∀ (n : Nat) (rest : List UInt8), (leBytes 4 n ++ rest).drop 4 = rest := fun n rest => drop_word 4 n rest 0
  have e8 : ∀ (n m : Nat) (rest : List UInt8),
  (leBytes 4 n ++ (leBytes 4 m ++ rest)).drop 8 = rest := fun n m rest => by
    rw [show 8 = 4 + 4 from rfl, drop_word, e4]
  rw [e4, e8, take_word (k := 4) _ _ (by omega), take_word (k := 4) _ _ (by omega)]
  have hl : g.image.arcs.length = 16 * (g.states.map (·.2)).flatten.length := arcsBytes_length _
  rw [if_pos (by omega)]
  exact arcsFrom_image hf st.2 _ _ _ harcs rfl

end Verif.Hclg
