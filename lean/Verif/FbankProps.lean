import Verif.FbankLemmas

/-!
# Properties C27, C44 and C45: framing, power-of-two rounding, in-place loops
-/

namespace Verif.Fbank

open Spec

/-! ## A concrete set of operations for the examples -/

/-- Exact integer arithmetic, a flat window, 40 overlapping filters of two bins, and an "FFT" that rotates the
window and fills its scratch buffer. -/
def toyOps : Ops Int where
  zero := 0
  add := (· + ·)
  sub := (· - ·)
  mul := (· * ·)
  div := fun x y => x.tdiv y
  ofInt := id
  preemph := fun x y => x - y
  lt := fun x y => decide (x < y)
  nonneg := fun x => decide (0 ≤ x)
  eps := 1
  log := fun x => x + 1
  window := List.replicate 400 1
  bins := (List.range 40).map fun i => (3 * i, [1, 2])
  fft := fun w _ => .ok (w.drop 1 ++ w.take 1, w)

theorem toyOps_tables : Tables toyOps := by
  refine ⟨List.length_replicate, by decide, ?_⟩
  intro b hb
  obtain ⟨i, hi, rfl⟩ := List.mem_map.mp hb
  have := List.mem_range.mp hi
  simp only [List.length_cons, List.length_nil]
  omega

theorem toyOps_scratch : ScratchOnly toyOps where
  indep := fun _ _ _ _ _ _ => rfl
  size := fun w b w' b' hw _ h => by
    have h : (Except.ok (w.drop 1 ++ w.take 1, w) : Exec _) = .ok (w', b') := h
    cases h
    refine ⟨?_, hw⟩
    rw [List.length_append, List.length_drop, List.length_take]
    omega

/-! ## C27 -/

/-- The frames of a signal: `(n - 400) / 160 + 1` of them when `n ≥ 400` and none otherwise, frame `i` consisting
of the samples `160 i … 160 i + 399`. -/
theorem C27_frames {F : Type} (x : List F) :
    (frames x).length = (if x.length < 400 then 0 else (x.length - 400) / 160 + 1) ∧
    ∀ i : Nat, i < (frames x).length → ∃ f, (frames x)[i]? = some f ∧ f.length = 400 ∧
      ∀ k : Nat, k < 400 → f[k]? = x[160 * i + k]? := by
  have hl : (frames x).length = numFrames x.length := by
    unfold frames; rw [List.length_map, List.length_range]
  refine ⟨hl, fun i hi => ⟨frame x i, ?_, ?_, fun k hk => ?_⟩⟩
  · unfold frames
    rw [List.getElem?_map, List.getElem?_range (by omega)]
    rfl
  · rw [hl] at hi
    unfold numFrames at hi
    unfold frame
    rw [List.length_take, List.length_drop]
    split at hi <;> omega
  · unfold frame
    rw [List.getElem?_take_of_lt hk, List.getElem?_drop]

/-- **C27** (for pieces of less than 536870500 samples: beyond that the buffer cannot be allocated).  Whatever the
signal, however it is cut into non-empty pieces, and whatever garbage the temporary arrays contain: the rows are
the features of the frames of the whole signal, in order, and the samples kept are those from the start of the
next frame on.  If the feature of some frame cannot be computed (NaN energy), the same failure occurs. -/
theorem C27_chunk_independence_partial {F : Type} (o : Ops F) (ht : Tables o) (hf : ScratchOnly o)
    (cs : List (Junk F × List F)) (hcs : ∀ c ∈ cs, c.2 ≠ [] ∧ c.2.length < 536870500)
    (x : List F) (hx : x = (cs.map Prod.snd).flatten) :
    feed o [] cs = (do
      let rows ← (frames x).mapM (row o)
      .ok (rows, x.drop (160 * (frames x).length))) := by
  subst hx
  have := feed_ok o ht hf cs [] rfl hcs
  rw [List.nil_append] at this
  rw [this]
  unfold frames
  rw [List.length_map, List.length_range]

/-- Two ways of cutting the same signal give the same rows and leave the same state. -/
theorem C27_same_signal_partial {F : Type} (o : Ops F) (ht : Tables o) (hf : ScratchOnly o)
    (cs ds : List (Junk F × List F)) (hcs : ∀ c ∈ cs, c.2 ≠ [] ∧ c.2.length < 536870500)
    (hds : ∀ c ∈ ds, c.2 ≠ [] ∧ c.2.length < 536870500)
    (h : (cs.map Prod.snd).flatten = (ds.map Prod.snd).flatten) :
    feed o [] cs = feed o [] ds := by
  rw [C27_chunk_independence_partial o ht hf cs hcs _ rfl, C27_chunk_independence_partial o ht hf ds hds _ rfl, h]

/-- The success case spelled out: when all features exist, row `i` is the feature of frame `i`. -/
theorem C27_rows {F : Type} (o : Ops F) (ht : Tables o) (hf : ScratchOnly o)
    (cs : List (Junk F × List F)) (hcs : ∀ c ∈ cs, c.2 ≠ [] ∧ c.2.length < 536870500)
    (g : List F → List F) (hg : ∀ f ∈ frames (cs.map Prod.snd).flatten, row o f = .ok (g f)) :
    ∃ rest, feed o [] cs = .ok ((frames (cs.map Prod.snd).flatten).map g, rest) ∧
      rest = (cs.map Prod.snd).flatten.drop (160 * (frames (cs.map Prod.snd).flatten).length) := by
  refine ⟨_, ?_, rfl⟩
  rw [C27_chunk_independence_partial o ht hf cs hcs _ rfl, mapM_ok _ _ _ hg]
  rfl

/-- An empty piece, which the function claims to skip, aborts: the matrix of size 0 × 40 cannot be allocated. -/
theorem C27_empty_piece_aborts {F : Type} (o : Ops F) (j : Junk F) (buf : List F) :
    process o j buf [] = .error .assert := rfl

/-- Indeterminate memory, for the examples. -/
def toyJunk (v : Int) : Junk Int where
  window := List.replicate 512 v
  buffer := List.replicate 512 (v + 1)
  hw := List.length_replicate
  hb := List.length_replicate

/-- Three pieces of 300, 1 and 301 samples. -/
def toyPieces : List (Junk Int × List Int) :=
  [(toyJunk 7, List.replicate 300 1), (toyJunk 8, [5]), (toyJunk 9, List.replicate 301 2)]

/-- They are admissible and make two frames. -/
example : (∀ c ∈ toyPieces, c.2 ≠ [] ∧ c.2.length < 536870500) ∧
    (frames (toyPieces.map Prod.snd).flatten).length = 2 := by
  have key : ∀ (n : Nat) (v : Int), n ≠ 0 → n < 536870500 →
      List.replicate n v ≠ [] ∧ (List.replicate n v).length < 536870500 := fun n v h1 h2 =>
    ⟨fun h => h1 (by rw [← List.length_replicate (n := n) (a := v), h]; rfl), by rw [List.length_replicate]; exact h2⟩
  constructor
  · intro c hc
    rcases List.mem_cons.mp hc with rfl | hc
    · exact key 300 1 (by omega) (by omega)
    rcases List.mem_cons.mp hc with rfl | hc
    · exact key 1 5 (by omega) (by omega)
    rcases List.mem_cons.mp hc with rfl | hc
    · exact key 301 2 (by omega) (by omega)
    · cases hc
  · rw [(C27_frames _).1]
    decide +kernel

/-- All features exist for the toy operations, as `C27_rows` asks. -/
theorem toyOps_row (f : List Int) : ∃ r, row toyOps f = .ok r := by
  have h : ∀ s, loggable toyOps s = true := by
    intro s
    unfold loggable
    rw [List.all_eq_true]
    intro b _
    show decide (0 ≤ if decide (energy toyOps s b < 1) = true then 1 else energy toyOps s b) = true
    rw [decide_eq_true_eq]
    by_cases hh : energy toyOps s b < 1
    · rw [if_pos (decide_eq_true hh)]; omega
    · rw [if_neg (by rw [decide_eq_true_eq]; exact hh)]; omega
  have h1 : spectrum toyOps f = .ok _ := rfl
  unfold row
  rw [h1, ok_bind, if_pos (h _)]
  exact ⟨_, rfl⟩

/-! ## C44 -/

/-- All bits of `n` are at most `k`, and the `s` highest of them (from `k` downwards) are set. -/
def Smeared (k s n : Nat) : Prop :=
  (∀ i, n.testBit i = true → i ≤ k) ∧ ∀ i, i ≤ k → k < i + s → n.testBit i = true

theorem Smeared.step {k s n : Nat} (h : Smeared k s n) : Smeared k (s + s) (n ||| (n >>> s)) := by
  constructor
  · intro i hi
    rw [Nat.testBit_or, Bool.or_eq_true, Nat.testBit_shiftRight] at hi
    rcases hi with hi | hi
    · exact h.1 i hi
    · have := h.1 _ hi; omega
  · intro i hi hk
    rw [Nat.testBit_or, Bool.or_eq_true, Nat.testBit_shiftRight]
    by_cases hs : k < i + s
    · exact .inl (h.2 i hi hs)
    · exact .inr (h.2 _ (by omega) (by omega))

theorem Smeared.done {k s n : Nat} (h : Smeared k s n) (hs : k < s) : n = 2 ^ (k + 1) - 1 := by
  apply Nat.eq_of_testBit_eq
  intro i
  rw [Nat.testBit_two_pow_sub_one]
  by_cases hi : i < k + 1
  · rw [h.2 i (by omega) (by omega), decide_eq_true hi]
  · rw [decide_eq_false hi]
    cases hb : n.testBit i with
    | false => rfl
    | true => have := h.1 i hb; omega

theorem roundUp_pow (m k : Nat) (h1 : 2 ^ k ≤ m) (h2 : m < 2 ^ (k + 1)) (hk : k < 32) :
    roundUp ((m : Int) + 1) = i32 ((2 ^ (k + 1) : Nat) : Int) := by
  have h0 : Smeared k 1 m := by
    constructor
    · intro i hi
      by_cases hik : i ≤ k
      · exact hik
      · have := Nat.testBit_lt_two_pow (x := m) (i := i)
          (Nat.lt_of_lt_of_le h2 (Nat.pow_le_pow_right (by omega) (by omega)))
        rw [this] at hi
        cases hi
    · intro i hi hik
      have : i = k := by omega
      subst this
      have hlog : m.log2 = i := (Nat.log2_eq_iff (by have := Nat.two_pow_pos i; omega)).mpr ⟨h1, h2⟩
      rw [← hlog]
      exact Nat.testBit_log2 (by have := Nat.two_pow_pos i; omega)
  have h5 := h0.step.step.step.step.step.done (by omega)
  unfold roundUp
  rw [decide_eq_true (by omega), cassert_true, ok_bind]
  simp only [show ((m : Int) + 1 - 1).toNat = m by omega]
  rw [h5]
  have := Nat.two_pow_pos (k + 1)
  congr 1
  omega

/-- **C44.** For `1 ≤ n ≤ 2^30` the result is a power of two not below `n`, and no power of two in between. -/
theorem C44_round_up (n : Int) (h1 : 1 ≤ n) (h2 : n ≤ 2 ^ 30) :
    ∃ k : Nat, roundUp n = .ok (2 ^ k : Int) ∧ n ≤ 2 ^ k ∧ ∀ j : Nat, n ≤ 2 ^ j → k ≤ j := by
  obtain ⟨m, rfl⟩ : ∃ m : Nat, n = (m : Int) + 1 := ⟨(n - 1).toNat, by omega⟩
  by_cases h0 : m = 0
  · subst h0
    exact ⟨0, rfl, by decide, fun j _ => Nat.zero_le j⟩
  · have hp1 := Nat.log2_self_le h0
    have hp2 := Nat.lt_log2_self (n := m)
    have hk : m.log2 < 30 := (Nat.log2_lt h0).mpr (by omega)
    have hle : (2 : Nat) ^ (m.log2 + 1) ≤ 2 ^ 30 := Nat.pow_le_pow_right (by omega) (by omega)
    refine ⟨m.log2 + 1, ?_, ?_, fun j hj => ?_⟩
    · rw [roundUp_pow m m.log2 hp1 hp2 (by omega), i32_of (by unfold InI32; omega)]
      exact congrArg Except.ok (Int.natCast_pow 2 (m.log2 + 1))
    · have : ((2 ^ (m.log2 + 1) : Nat) : Int) = (2 : Int) ^ (m.log2 + 1) := Int.natCast_pow 2 (m.log2 + 1)
      omega
    · have e : ((2 ^ j : Nat) : Int) = (2 : Int) ^ j := Int.natCast_pow 2 j
      exact (Nat.log2_lt h0).mpr (by omega)

example : roundUp 400 = .ok 512 ∧ roundUp 512 = .ok 512 ∧ roundUp 513 = .ok 1024 := by decide +kernel

/-- Above `2^30` the final addition overflows. -/
theorem C44_overflow (n : Int) (h1 : 2 ^ 30 < n) (h2 : n ≤ 2147483647) : roundUp n = .error .ub := by
  obtain ⟨m, rfl⟩ : ∃ m : Nat, n = (m : Int) + 1 := ⟨(n - 1).toNat, by omega⟩
  rw [roundUp_pow m 30 (by omega) (by omega) (by omega)]
  rfl

example : roundUp (2 ^ 30) = .ok (2 ^ 30) ∧ roundUp (2 ^ 30 + 1) = .error .ub := by decide +kernel

/-- Zero and negative numbers trip the assertion. -/
theorem C44_nonpositive (n : Int) (h : n ≤ 0) : roundUp n = .error .assert := by
  unfold roundUp
  rw [decide_eq_false (by omega), cassert_false]
  rfl

/-- The padded length of a frame. -/
theorem C44_padded_frame : roundUp frameLength = .ok paddedLength := by decide +kernel

/-! ## C45 -/

theorem get_at {F : Type} (o : Ops F) {x : List F} {i : Nat} (h : i < x.length) : x[i]? = some (at_ o x i) := by
  unfold at_
  rw [List.getD_eq_getElem?_getD, List.getElem?_eq_getElem h]
  rfl

/-- **C45** (pre-emphasis).  The loop that runs over a frame in place, from the last element to the first, gives
the values computed from the original frame: element `i` from the old elements `i` and `i - 1`, element 0 from
itself. -/
theorem C45_preemphasis {F : Type} (o : Ops F) (x : List F) (h : 0 < x.length) :
    ∃ y, preemphLoop o (x.length - 1) x = .ok y ∧ y.length = x.length ∧
      ∀ i : Nat, i < x.length → ∃ a b, x[i]? = some a ∧ x[i - 1]? = some b ∧ y[i]? = some (o.preemph a b) := by
  obtain ⟨y, h1, h2, h3⟩ := preemphLoop_ok o (x.length - 1) x (by omega)
  refine ⟨y, h1, h2, fun i hi => ⟨_, _, get_at o hi, get_at o (show i - 1 < x.length by omega), ?_⟩⟩
  rw [get_at o (by omega), h3 i hi, if_pos (by omega)]

example : preemphLoop toyOps 3 [1, 4, 9, 16] = .ok [0, 3, 5, 7] := by decide +kernel


/-- **C45** (power spectrum).  The loop that overwrites a packed spectrum by its energies gives the values
computed from the original spectrum: bin 0 from element 0, bin `n/2` from element 1, bin `k` in between from
elements `2k` and `2k+1`. -/
theorem C45_power_spectrum {F : Type} (o : Ops F) (s : List F) (n : Nat) (hn : s.length = 2 * n) (h : 1 ≤ n) :
    ∃ w, powerSpectrum o s = .ok w ∧ w.length = s.length ∧
      (∃ a, s[0]? = some a ∧ w[0]? = some (o.mul a a)) ∧
      (∃ a, s[1]? = some a ∧ w[n]? = some (o.mul a a)) ∧
      ∀ k : Nat, 1 ≤ k → k < n → ∃ re im, s[2 * k]? = some re ∧ s[2 * k + 1]? = some im ∧
        w[k]? = some (o.add (o.mul re re) (o.mul im im)) := by
  obtain ⟨w, h1, h2, h3⟩ := powerSpectrum_ok o (w := s) (by omega) (by omega)
  refine ⟨w, h1, h2, ⟨_, get_at o (by omega), ?_⟩, ⟨_, get_at o (by omega), ?_⟩,
    fun k hk1 hk2 => ⟨_, _, get_at o (by omega), get_at o (by omega), ?_⟩⟩
  · rw [get_at o (by omega), h3 0 (by omega)]
    rfl
  · rw [get_at o (by omega), h3 n (by omega)]
    unfold power
    rw [if_neg (by omega), if_pos (by omega)]
  · rw [get_at o (by omega), h3 k (by omega)]
    unfold power
    rw [if_neg (by omega), if_neg (by omega)]

example : powerSpectrum toyOps [1, 2, 3, 4, 5, 6] = .ok [1, 25, 61, 4, 5, 6] := by decide +kernel

end Verif.Fbank
