import Verif.HclgSpec

/-!
# Lemmas about the file of the decoding graph
-/

namespace Verif.Hclg

open Verif Verif.Hclg.Spec

/-! ## Numbers -/

@[simp] theorem leBytes_length : ∀ (k n : Nat), (leBytes k n).length = k
  | 0, _ => rfl
  | k + 1, n => by rw [leBytes, List.length_cons, leBytes_length k]

theorem le_leBytes : ∀ (k n : Nat), n < 256 ^ k → le (leBytes k n) = n
  | 0, n, h => by
    have : n = 0 := by simpa using h
    subst this
    rfl
  | k + 1, n, h => by
    have h1 : n / 256 < 256 ^ k := by
      rw [Nat.div_lt_iff_lt_mul (by decide)]
      rw [Nat.pow_succ] at h
      exact h
    rw [leBytes, le, le_leBytes k _ h1, UInt8.toNat_ofNat']
    omega

theorem le_lt : ∀ (bs : List UInt8), le bs < 256 ^ bs.length
  | [] => by decide
  | b :: bs => by
    have h1 := le_lt bs
    have h2 := b.toNat_lt
    rw [le, List.length_cons, Nat.pow_succ]
    omega

theorem leBytes_le : ∀ (bs : List UInt8), leBytes bs.length (le bs) = bs
  | [] => rfl
  | b :: bs => by
    have h2 := b.toNat_lt
    rw [List.length_cons, le, leBytes]
    have h1 : (b.toNat + 256 * le bs) % 256 = b.toNat := by omega
    have h3 : (b.toNat + 256 * le bs) / 256 = le bs := by omega
    rw [h1, h3, leBytes_le bs, UInt8.ofNat_toNat]

theorem signed_unsigned4 {x : Int} (h1 : -2147483648 ≤ x) (h2 : x < 2147483648) :
    signed 4294967296 (unsigned 4294967296 x) = x := by
  unfold signed unsigned
  split <;> omega

theorem signed_unsigned8 {x : Int} (h1 : -9223372036854775808 ≤ x) (h2 : x < 9223372036854775808) :
    signed 18446744073709551616 (unsigned 18446744073709551616 x) = x := by
  unfold signed unsigned
  split <;> omega

theorem unsigned4_lt (x : Int) : unsigned 4294967296 x < 256 ^ 4 := by
  unfold unsigned
  omega

theorem unsigned8_lt (x : Int) : unsigned 18446744073709551616 x < 256 ^ 8 := by
  unfold unsigned
  omega

/-! ## Reading what is there -/

theorem read_append {x rest : List UInt8} {p n : Nat} (hx : x.length = n) :
    Strm.read ⟨x ++ rest, p, false⟩ n = (x, ⟨rest, p + n, false⟩) := by
  subst hx
  unfold Strm.read
  rw [if_neg Bool.false_ne_true, if_pos (by simp), List.take_left, List.drop_left]

theorem readWord_append {x rest : List UInt8} {p k old : Nat} (hx : x.length = k) :
    readWord k old ⟨x ++ rest, p, false⟩ = (le x, ⟨rest, p + k, false⟩) := by
  unfold readWord
  rw [read_append hx]
  dsimp only
  rw [List.drop_of_length_le (by rw [leBytes_length]; omega), List.append_nil]

theorem readWord_leBytes {rest : List UInt8} {p k old n : Nat} (hn : n < 256 ^ k) :
    readWord k old ⟨leBytes k n ++ rest, p, false⟩ = (n, ⟨rest, p + k, false⟩) := by
  rw [readWord_append (leBytes_length k n), le_leBytes k n hn]

theorem readChars_append : ∀ (x rest : List UInt8) (p : Nat),
    readChars x.length ⟨x ++ rest, p, false⟩ = .ok (x, ⟨rest, p + x.length, false⟩)
  | [], _, _ => rfl
  | c :: x, rest, p => by
    rw [List.length_cons, readChars]
    rw [show (⟨c :: x ++ rest, p, false⟩ : Strm) = ⟨[c] ++ (x ++ rest), p, false⟩ from rfl,
  read_append (x := [c]) (n := 1) rfl]
    dsimp only
    rw [readChars_append x rest (p + 1)]
    show Except.ok (c :: x, _) = _
    rw [show p + 1 + x.length = p + (x.length + 1) by omega]

theorem readString_append {t rest : List UInt8} {p : Nat} (ht : t.length < 2147483648) :
    readString ⟨stringBytes t ++ rest, p, false⟩ = .ok (t, ⟨rest, p + (stringBytes t).length, false⟩) := by
  unfold readString stringBytes
  rw [List.append_assoc, readWord_leBytes (by omega)]
  dsimp only
  rw [show (signed 4294967296 t.length).toNat = t.length by unfold signed; split <;> omega, readChars_append]
  rw [List.length_append, leBytes_length, Nat.add_assoc]

theorem readChunks_append : ∀ (fuel : Nat) (x rest : List UInt8) (p : Nat), x.length ≤ fuel * 268435456 →
    readChunks fuel x.length ⟨x ++ rest, p, false⟩ = .ok (some x, ⟨rest, p + x.length, false⟩)
  | 0, x, _, _, h => by
    obtain rfl := List.length_eq_zero_iff.1 (show x.length = 0 by omega)
    rfl
  | fuel + 1, x, rest, p, h => by
    cases x with
    | nil => rfl
    | cons c x' =>
      generalize hx : c :: x' = x at h ⊢
      have hpos : 0 < x.length := by rw [← hx]; simp
      obtain ⟨m, hm⟩ : ∃ m, x.length = m + 1 := ⟨x.length - 1, by omega⟩
      rw [hm, readChunks, ← hm]
      generalize hn : min x.length 268435456 = n
      have hle : n ≤ x.length := by omega
      have hsplit : x = x.take n ++ x.drop n := (List.take_append_drop n x).symm
      have h1 : Strm.read ⟨x ++ rest, p, false⟩ n = (x.take n, ⟨x.drop n ++ rest, p + n, false⟩) := by
        rw [show x ++ rest = x.take n ++ (x.drop n ++ rest) by rw [← List.append_assoc, ← hsplit]]
        exact read_append (by rw [List.length_take]; omega)
      rw [h1]
      dsimp only
      rw [if_neg (by decide)]
      have h2 := readChunks_append fuel (x.drop n) rest (p + n) (by rw [List.length_drop]; omega)
      rw [List.length_drop] at h2
      rw [h2]
      show Except.ok (some (x.take n ++ x.drop n), _) = _
      rw [← hsplit, show p + n + (x.length - n) = p + x.length by omega]
      intro h
      cases h

theorem map_append {x rest : List UInt8} {p n : Nat} (hx : x.length = n) (hn : n < 9223372036854775000) :
    map n ⟨x ++ rest, p, false⟩ = .ok (some x, ⟨rest, p + n, false⟩) := by
  subst hx
  unfold map
  by_cases h : x.length = 0
  · rw [if_pos h]
    obtain rfl := List.length_eq_zero_iff.1 h
    rfl
  · rw [if_neg h, if_neg (by omega), if_neg (by omega)]
    exact readChunks_append _ x rest p (by omega)

theorem alignLoop_append : ∀ (n k : Nat) (rest : List UInt8) (p : Nat), k = (16 - p % 16) % 16 → k < n →
    alignLoop n ⟨List.replicate k 0 ++ rest, p, false⟩ = (true, ⟨rest, p + k, false⟩)
  | 0, _, _, _, _, h => by omega
  | n + 1, k, rest, p, hk, h => by
    rw [alignLoop]
    dsimp only
    rw [if_neg (by decide)]
    by_cases hp : p % 16 = 0
    · rw [if_pos hp]
      have : k = 0 := by omega
      subst this
      rfl
    · rw [if_neg hp]
      obtain ⟨j, rfl⟩ : ∃ j, k = j + 1 := ⟨k - 1, by omega⟩
      rw [List.replicate_succ, show (⟨(0 :: List.replicate j 0) ++ rest, p, false⟩ : Strm) =
        ⟨[0] ++ (List.replicate j 0 ++ rest), p, false⟩ from rfl, read_append (x := [0]) (n := 1) rfl]
      dsimp only
      rw [alignLoop_append n j rest (p + 1) (by omega) (by omega), show p + 1 + j = p + (j + 1) by omega]

theorem alignInput_append (rest : List UInt8) (p : Nat) :
    alignInput ⟨padding p ++ rest, p, false⟩ = (true, ⟨rest, p + (padding p).length, false⟩) := by
  unfold alignInput padding
  rw [alignLoop_append 16 _ rest p rfl (by omega), List.length_replicate]

/-! ## The header and the tables -/

theorem headerRead_append {h : Header} (hf : HeaderFits h) (rest : List UInt8) (p : Nat) :
    headerRead ⟨headerBytes h ++ rest, p, false⟩ = .ok (some h, ⟨rest, p + (headerBytes h).length, false⟩) := by
  unfold headerRead headerBytes
  simp only [List.append_assoc, List.length_append, leBytes_length]
  rw [readWord_leBytes (by decide)]
  dsimp only
  rw [if_neg (by simp), readString_append hf.fstType]
  simp only [ok_bind]
  rw [readString_append hf.arcType]
  simp only [ok_bind]
  rw [readWord_leBytes (unsigned4_lt _)]
  dsimp only
  rw [readWord_leBytes (show h.flags < 256 ^ 4 from hf.flags)]
  dsimp only
  rw [readWord_leBytes (show h.properties < 256 ^ 8 from hf.properties)]
  dsimp only
  rw [readWord_leBytes (unsigned8_lt _)]
  dsimp only
  rw [readWord_leBytes (unsigned8_lt _)]
  dsimp only
  rw [readWord_leBytes (unsigned8_lt _)]
  dsimp only
  rw [if_neg (by decide), signed_unsigned4 hf.version.1 hf.version.2, signed_unsigned8 hf.start.1 hf.start.2,
    signed_unsigned8 hf.numStates.1 hf.numStates.2, signed_unsigned8 hf.numArcs.1 hf.numArcs.2]
  congr 3
  omega

theorem symbolLoop_append : ∀ (l : List (Str × Int)) (seen : List Str) (rest : List UInt8) (p : Nat),
    (∀ q ∈ l, q.1.length < 2147483648 ∧ -9223372036854775808 ≤ q.2 ∧ q.2 < 9223372036854775807) →
    symbolLoop l.length seen
      ⟨(l.map fun q => stringBytes q.1 ++ leBytes 8 (unsigned 18446744073709551616 q.2)).flatten ++ rest, p, false⟩ =
      .ok ⟨rest, p + (l.map fun q => stringBytes q.1 ++ leBytes 8 (unsigned 18446744073709551616 q.2)).flatten.length,
  false⟩
  | [], _, _, _, _ => rfl
  | q :: l, seen, rest, p, h => by
    obtain ⟨h1, h2, h3⟩ := h q List.mem_cons_self
    rw [List.length_cons, symbolLoop]
    simp only [List.map_cons, List.flatten_cons, List.append_assoc, List.length_append, leBytes_length]
    rw [readString_append h1]
    simp only [ok_bind]
    rw [readWord_leBytes (unsigned8_lt _)]
    dsimp only
    rw [if_neg (by decide), signed_unsigned8 h2 (by omega)]
    have hseen : ∃ seen', addSymbol seen q.1 q.2 = .ok seen' := by
      unfold addSymbol
      split
      · exact ⟨_, rfl⟩
      · split
        · exact ⟨_, rfl⟩
        · rw [if_neg (by omega)]
          exact ⟨_, rfl⟩
    obtain ⟨seen', hs⟩ := hseen
    rw [hs]
    simp only [ok_bind]
    rw [symbolLoop_append l seen' rest _ (fun q' hq => h q' (List.mem_cons_of_mem _ hq))]
    congr 2
    omega

theorem readSymbols_append {t : Table} (ht : TableFits t) (rest : List UInt8) (p : Nat) :
    readSymbols ⟨t.bytes ++ rest, p, false⟩ = .ok ⟨rest, p + t.bytes.length, false⟩ := by
  unfold readSymbols Table.bytes
  simp only [List.append_assoc, List.length_append, leBytes_length]
  rw [readWord_leBytes (by decide)]
  dsimp only
  rw [if_neg (by decide), readString_append ht.name]
  simp only [ok_bind]
  rw [readWord_leBytes (unsigned8_lt _)]
  dsimp only
  have hsz := ht.size
  rw [readWord_leBytes (by omega)]
  dsimp only
  rw [if_neg (by decide), show (signed 18446744073709551616 t.symbols.length).toNat = t.symbols.length by
    unfold signed; split <;> omega, symbolLoop_append _ _ _ _ (fun q hq => ⟨(ht.symbols q hq).1,
  (ht.symbols q hq).2.1.1, by
      have h1 := (ht.symbols q hq).2.1.2; have h2 := (ht.symbols q hq).2.2; omega⟩)]
  congr 2
  omega

end Verif.Hclg
