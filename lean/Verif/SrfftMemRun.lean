import Verif.SrfftMemLemmas

/-!
# Constructor, transform and destructor with the tables in memory
-/

namespace Verif.SrfftMem

open Mat (Heap Addr load poke alloc free peek)
open Srfft

variable {F : Type}

/-! ## Constructor -/

/-- `tab_` after `j` levels; the first level's block is `B`. -/
def ptrs (k B j : Nat) : List (Option (Val F)) :=
  vec (k - 1) (fun i => if k - 3 - j ≤ i ∧ i < k - 3 then some (.ptr ⟨B + (k - 4 - i), 0⟩) else none)

theorem vec_set {A : Type} {n : Nat} (f : Nat → A) {i : Nat} (h : i < n) (v : A) :
    (vec n f).set i v = vec n (fun k => if k = i then v else f k) := by
  have e := aset_vec f h v
  rw [aset_nat (by rw [vec_length]; exact h)] at e
  exact Except.ok.inj e

theorem loadPtr_of {h : Heap (Val F)} {b i : Nat} {l : List (Option (Val F))} {a : Addr} (hb : h[b]? = some (some l))
    (hi : l[i]? = some (some (.ptr a))) : loadPtr h (plus ⟨b, 0⟩ i) = .ok a := by
  rw [plus_zero]
  unfold loadPtr
  rw [VecMem.load_block hb hi]
  rfl

/-- The levels that are there after `j` of them. -/
def levels (o : Ops F) (k j : Nat) : Heap (Val F) := (List.range j).map (fun j => some (level o (2 ^ (k - j - 3))))

theorem levels_length (o : Ops F) (k j : Nat) : (levels o k j).length = j := by simp [levels]

theorem levels_succ (o : Ops F) (k j : Nat) : levels o k (j + 1) = levels o k j ++ [some (level o (2 ^ (k - j - 3)))] := by
  simp [levels, List.range_succ]

theorem set_mid {A : Type} (X : List A) (x y : A) (L : List A) : (X ++ [x] ++ L).set X.length y = X ++ [y] ++ L := by
  simp

theorem get_mid {A : Type} (X : List A) (x : A) (L : List A) : (X ++ [x] ++ L)[X.length]? = some x := by
  simp

theorem level_step (o : Ops F) (H : Heap (Val F)) {k j : Nat} (hj : j < k - 3) :
    levelM o ⟨H.length, 0⟩ (k - j) (H ++ [some (ptrs k (H.length + 1) j)] ++ levels o k j) =
      .ok (H ++ [some (ptrs k (H.length + 1) (j + 1))] ++ levels o k (j + 1)) := by
  have hp : 2 ^ (k - j) = 8 * 2 ^ (k - j - 3) := by
    rw [show k - j = (k - j - 3) + 3 by omega, Nat.pow_add, Nat.mul_comm]
    rfl
  have ha : 2 ≤ 2 ^ (k - j - 3) := by
    calc 2 = 2 ^ 1 := rfl
      _ ≤ _ := Nat.pow_le_pow_right (by omega) (by omega)
  generalize ea : 2 ^ (k - j - 3) = a at hp ha
  unfold levelM malloc alloc
  simp only [hp]
  rw [Nat.mul_div_cancel_left _ (by omega), plus_zero]
  have hlen : (ptrs (F := F) k (H.length + 1) j).length = k - 1 := vec_length _ _
  have hset : (ptrs (F := F) k (H.length + 1) j).set (k - j - 4)
      (some (.ptr ⟨(H ++ [some (ptrs (F := F) k (H.length + 1) j)] ++ levels o k j).length, 0⟩)) =
      ptrs k (H.length + 1) (j + 1) := by
    unfold ptrs
    rw [vec_set _ (by omega)]
    apply vec_congr
    intro i hi
    simp only [List.length_append, List.length_cons, List.length_nil, levels_length]
    by_cases e : i = k - j - 4
    · rw [if_pos e, if_pos (by omega), show H.length + (0 + 1) + j = H.length + 1 + (k - 4 - i) by omega]
    · rw [if_neg e]
      split_ifs <;> first | rfl | omega
  rw [List.append_assoc _ (levels o k j), VecMem.poke_block (get_mid H _ _) (by rw [hlen]; omega), ← List.append_assoc _ (levels o k j),
    hset, List.append_assoc _ (levels o k j), set_mid, ok_bind]
  rw [show (⟨H.length, ((k - j - 4 : Nat) : Int)⟩ : Addr) = plus ⟨H.length, 0⟩ (k - j - 4) from (plus_zero _ _).symm,
    loadPtr_of (a := ⟨H.length + 1 + j, 0⟩) (get_mid H _ _) (by
      unfold ptrs
      rw [vec_get _ (by omega), if_pos (by omega), show H.length + 1 + (k - 4 - (k - j - 4)) = H.length + 1 + j by omega]), ok_bind]
  have hl : (H ++ [some (ptrs (F := F) k (H.length + 1) (j + 1))] ++ levels o k j).length = H.length + 1 + j := by
    simp only [List.length_append, List.length_cons, List.length_nil, levels_length]
  have := fill_all o (H ++ [some (ptrs (F := F) k (H.length + 1) (j + 1))] ++ levels o k j) ha
  rw [hl, List.append_assoc _ (levels o k j)] at this
  rw [this, ok_bind, levels_succ, ea, List.append_assoc _ (levels o k j)]

theorem tab_ok (o : Ops F) (H : Heap (Val F)) {k : Nat} (hk : 4 ≤ k) :
    tabM o k H = .ok (some ⟨H.length, 0⟩, H ++ [some (ptrs k (H.length + 1) (k - 3))] ++ levels o k (k - 3)) := by
  unfold tabM malloc alloc
  rw [if_neg (by omega)]
  simp only
  rw [show (8 * k - 3) / 8 = k - 1 by omega]
  have e := forN_trace (n := k - 3) (f := fun j h => levelM o ⟨H.length, 0⟩ (k - j) h)
    (fun j => H ++ [some (ptrs k (H.length + 1) j)] ++ levels o k j) (fun j hj => level_step o H hj)
  have e0 : H ++ [some (List.replicate (k - 1) none)] = H ++ [some (ptrs (F := F) k (H.length + 1) 0)] ++ levels o k 0 := by
    have : (List.replicate (k - 1) none : List (Option (Val F))) = ptrs k (H.length + 1) 0 :=
      eq_vec (by rw [List.length_replicate]) (fun i hi => by
        rw [List.getElem?_replicate, if_pos hi, if_neg (by omega)])
    rw [this, levels]
    simp
  rw [e0, e]
  rfl

/-- What the constructor allocates, from block `B` on. -/
def blocks (o : Ops F) (k B : Nat) : Heap (Val F) :=
  [some (seedCells (made o k).seed)] ++
    if k < 4 then [] else [some (ptrs k (B + 2) (k - 3))] ++ levels o k (k - 3)

/-- The object. -/
def objOf (k B : Nat) : Obj := ⟨2 ^ k, k, ⟨B, 0⟩, if k < 4 then none else some ⟨B + 1, 0⟩⟩

theorem new_ok (o : Ops F) (H : Heap (Val F)) {points : Int} {k : Nat} (hk : 1 ≤ k)
    (h : points.tdiv 2 = ((2 ^ k : Nat) : Int)) :
    newM o points H = .ok (objOf k H.length, H ++ blocks o k H.length) := by
  have hp : 2 ≤ 2 ^ k := by
    calc 2 = 2 ^ 1 := rfl
      _ ≤ 2 ^ k := Nat.pow_le_pow_right (by omega) hk
  unfold newM
  simp only
  rw [h, Int.toNat_natCast, decide_eq_true (show (1 : Int) < ((2 ^ k : Nat) : Int) by omega), cassert_true, ok_bind,
    decide_eq_true (and_of_pow k), cassert_true, ok_bind, logOf_pow k _ Nat.lt_two_pow_self, seed_table, seedTable_ok k hk]
  show (do
    let t ← tabM o k (H ++ [some (seedCells (made o k).seed)])
    Except.ok (_, _)) = _
  unfold objOf blocks
  by_cases h4 : k < 4
  · unfold tabM
    rw [if_pos h4, if_pos h4, if_pos h4]
    simp only [ok_bind, List.append_nil]
  · rw [tab_ok o _ (by omega), if_neg h4, if_neg h4]
    simp only [ok_bind, List.length_append, List.length_cons, List.length_nil, List.append_assoc]

theorem new_fails (o : Ops F) (H : Heap (Val F)) {points : Int} {e : Fault} (h : new o points = .error e) :
    newM o points H = .error e := by
  unfold new at h
  unfold newM
  simp only at h ⊢
  by_cases h1 : 1 < points.tdiv 2
  · rw [decide_eq_true h1, cassert_true, ok_bind] at h ⊢
    by_cases h2 : (points.tdiv 2).toNat &&& ((points.tdiv 2).toNat - 1) = 0
    · obtain ⟨k, hk⟩ := pow_of_and _ (by omega) h2
      have hk1 : 1 ≤ k := by
        rcases Nat.eq_zero_or_pos k with rfl | h
        · rw [Nat.pow_zero] at hk; omega
        · exact h
      have := new_pow o (points := points) hk1 (by omega)
      unfold new at this
      simp only at this
      rw [decide_eq_true h1, cassert_true, ok_bind, h] at this
      cases this
    · rw [decide_eq_false h2] at h ⊢
      cases h
      rfl
  · rw [decide_eq_false h1] at h ⊢
    cases h
    rfl

/-! ## What later memory holds -/

/-- The blocks of the object, from `B` on. -/
structure Holds (o : Ops F) (k B : Nat) (g : Heap (Val F)) : Prop where
  seed : g[B]? = some (some (seedCells (made o k).seed))
  tab : 4 ≤ k → g[B + 1]? = some (some (ptrs k (B + 2) (k - 3)))
  lev : 4 ≤ k → ∀ j, j < k - 3 → g[B + 2 + j]? = some (some (level o (2 ^ (k - j - 3))))

theorem blocks_length (o : Ops F) (k B : Nat) : (blocks o k B).length = if k < 4 then 1 else k - 1 := by
  unfold blocks
  split_ifs
  · rfl
  · simp only [List.length_append, List.length_cons, List.length_nil, levels_length]
    omega

theorem holds_of (o : Ops F) {k : Nat} {H g : Heap (Val F)}
    (hg : ∀ b, H.length ≤ b → b < (H ++ blocks o k H.length).length → g[b]? = (H ++ blocks o k H.length)[b]?) :
    Holds o k H.length g := by
  have look : ∀ i x, (blocks o k H.length)[i]? = some x → g[H.length + i]? = some x := by
    intro i x hx
    have hi := (List.getElem?_eq_some_iff.mp hx).1
    rw [hg _ (by omega) (by rw [List.length_append]; omega), List.getElem?_append_right (by omega),
      show H.length + i - H.length = i by omega, hx]
  refine ⟨look 0 _ rfl, fun h4 => look 1 _ ?_, fun h4 j hj => ?_⟩
  · unfold blocks
    rw [if_neg (by omega)]
    rfl
  · rw [show H.length + 2 + j = H.length + (2 + j) by omega]
    apply look
    unfold blocks
    rw [if_neg (by omega), ← List.append_assoc, List.getElem?_append_right (by simp)]
    simp [levels, hj]

/-! ## Transform -/

theorem load_grid {g : Heap (Val F)} {b nel t j : Nat} {G : Nat → Nat → Option (Val F)} {x : F}
    (hb : g[b]? = some (some (grid nel G))) (ht : t < 6) (hj : j < nel) (e : G t j = some (.num x)) :
    loadNum g ⟨b, (t * nel + j : Nat)⟩ = .ok x := by
  unfold loadNum
  rw [VecMem.load_block hb (by rw [grid_get G ht hj, e])]
  rfl

theorem six_ok (o : Ops F) {g : Heap (Val F)} {b a j : Nat} (hb : g[b]? = some (some (level o a))) (hj : j < 2 * a - 2) :
    loadSix g (at' b (2 * a - 2) j) = .ok (atPlace o a j) := by
  unfold loadSix
  simp only [at_c, at_spc, at_smc, at_c3, at_spc3, at_smc3]
  unfold level at hb
  rw [load_grid hb (by omega) hj rfl, ok_bind, load_grid hb (by omega) hj rfl, ok_bind, load_grid hb (by omega) hj rfl, ok_bind,
    load_grid hb (by omega) hj rfl, ok_bind, load_grid hb (by omega) hj rfl, ok_bind, load_grid hb (by omega) hj rfl, ok_bind]
  rfl

theorem twiddle_same (o : Ops F) {k B l : Nat} {g : Heap (Val F)} (hg : Holds o k B g) (hl : l + 3 ≤ k) (b : Nat)
    (s : Cx F) :
    (do
      let p ← startsFor (objOf k B).tab (l + 3) g
      let r ← forN (2 ^ (l + 3) / 4 - 1) (twiddleStepM o g (2 ^ (l + 3)) b) (s, p)
      Except.ok r.1) =
    (do
      let row ← rowFor (made o k).tab (l + 3)
      let r ← forN (2 ^ (l + 3) / 4 - 1) (twiddleStep o row (2 ^ (l + 3)) b) (s, 0)
      Except.ok r.1) := by
  have hp : 2 ^ (l + 3) = 8 * 2 ^ l := by rw [Nat.pow_add, Nat.mul_comm]
  rcases Nat.eq_zero_or_pos l with rfl | h1
  · unfold startsFor rowFor
    rw [if_neg (by omega), if_neg (by omega), ok_bind, ok_bind]
    show (do
      let r ← forN 1 (twiddleStepM o g 8 b) (s, none)
      Except.ok r.1) = (do
      let r ← forN 1 (twiddleStep o [] 8 b) (s, 0)
      Except.ok r.1)
    have e := forN_same (f := twiddleStep o [] 8 b) (g := twiddleStepM o g 8 b) (fun x => (x.1, none)) 1 (by
      intro i s hi
      unfold twiddleStepM twiddleStep
      rw [if_pos (by omega), if_pos (by omega), map_bind]
      rfl) (s, 0)
    rw [e, bind_map]
  · have ha : 2 ≤ 2 ^ l := by
      calc 2 = 2 ^ 1 := rfl
        _ ≤ _ := Nat.pow_le_pow_right (by omega) h1
    have hrow := table_get o hl h1
    have hptr : startsFor (objOf k B).tab (l + 3) g = .ok (some (at' (B + 2 + (k - 3 - l)) (2 * 2 ^ l - 2) 0)) := by
      unfold startsFor objOf
      rw [if_pos (by omega), if_neg (by omega)]
      simp only
      rw [loadPtr_of (a := ⟨B + 2 + (k - 3 - l), 0⟩) (hg.tab (by omega)) (by
        unfold ptrs
        rw [vec_get _ (by omega), if_pos (by omega)]
        congr 4
        omega), ok_bind, starts_at, hp, show 8 * 2 ^ l / 4 = 2 * 2 ^ l by omega]
    have hlev := hg.lev (by omega) (k - 3 - l) (by omega)
    rw [show k - (k - 3 - l) - 3 = l by omega] at hlev
    rw [show rowFor (made o k).tab (l + 3) = _ from hrow, hptr, ok_bind, ok_bind, hp]
    generalize 2 ^ l = a at *
    generalize B + 2 + (k - 3 - l) = c at *
    have e := (forN_map (f := twiddleStep o (tableRow o (8 * a)) (8 * a) b) (g := twiddleStepM o g (8 * a) b)
      (fun x => (x.1, some (at' c (2 * a - 2) x.2))) (fun i x => x.2 = moved a i) (8 * a / 4 - 1) (by
        rintro i ⟨x, j⟩ hi hj
        simp only at hj
        subst hj
        unfold twiddleStepM twiddleStep
        by_cases e1 : i + 1 = a
        · rw [if_pos (by omega), if_pos (by omega), map_bind]
          rfl
        · have hm : moved a i < 2 * a - 2 := by unfold moved; split_ifs <;> omega
          rw [if_neg (by omega), if_neg (by omega)]
          simp only
          rw [six_ok o hlev hm, ok_bind, aget_nat (x := atPlace o a (moved a i)) (by
            have := tableRow_get o (a := a) (i := i) (by omega) (by omega) e1
            unfold moved atPlace
            rw [this]
            congr 2
            split_ifs <;> omega), ok_bind, map_bind, advance_at]
          rfl) (by
        rintro i ⟨x, j⟩ s' hi hj hs
        simp only at hj
        subst hj
        unfold twiddleStep at hs
        by_cases e1 : i + 1 = a
        · rw [if_pos (by omega)] at hs
          obtain ⟨y, -, hy⟩ := bind_ok hs
          cases hy
          show moved a i = _
          unfold moved
          split_ifs <;> omega
        · rw [if_neg (by omega)] at hs
          obtain ⟨y, -, hy⟩ := bind_ok hs
          obtain ⟨z, -, hz⟩ := bind_ok hy
          cases hz
          show moved a i + 1 = _
          unfold moved
          split_ifs <;> omega) (s, 0) (by show 0 = moved a 0; unfold moved; rw [if_pos (by omega)])).1
    rw [e, bind_map]

theorem bind_fst {α β γ δ : Type} {x : Exec α} {f : α → Exec (β × γ)} {y : Exec δ} {ε : Type} {k : δ → Exec (β × ε)}
    (h : (do let a ← x; let r ← f a; Except.ok r.1) = (do let a ← y; let r ← k a; Except.ok r.1)) {ζ : Type}
    (c : β → Exec ζ) : (do let a ← x; let r ← f a; c r.1) = (do let a ← y; let r ← k a; c r.1) := by
  have e1 : (do let a ← x; let r ← f a; c r.1) = (do let a ← x; let r ← f a; Except.ok r.1) >>= c := by
    cases x with
    | error => rfl
    | ok a =>
      show (f a >>= fun r => c r.1) = (f a >>= fun r => Except.ok r.1) >>= c
      cases f a <;> rfl
  have e2 : (do let a ← y; let r ← k a; c r.1) = (do let a ← y; let r ← k a; Except.ok r.1) >>= c := by
    cases y with
    | error => rfl
    | ok a =>
      show (k a >>= fun r => c r.1) = (k a >>= fun r => Except.ok r.1) >>= c
      cases k a <;> rfl
  rw [e1, e2, h]

theorem fft_same (o : Ops F) {k B : Nat} {g : Heap (Val F)} (hg : Holds o k B g) : ∀ (l : Nat), l ≤ k → ∀ (b : Nat) (s : Cx F),
    fftRecM o (objOf k B).tab g l b s = fftRec o (made o k).tab l b s
  | 0, _, b, s => by unfold fftRecM fftRec; rfl
  | 1, _, b, s => by unfold fftRecM fftRec; rfl
  | 2, _, b, s => by unfold fftRecM fftRec; rfl
  | l + 3, hl, b, s => by
    unfold fftRecM fftRec
    simp only [fft_same o hg (l + 2) (by omega), fft_same o hg (l + 1) (by omega)]
    congr 1
    funext s
    congr 1
    funext s
    exact bind_fst (twiddle_same o hg hl b s) (fun x => do
      let s ← fftRec o (made o k).tab (l + 2) b x
      let s ← fftRec o (made o k).tab (l + 1) (b + 2 ^ (l + 3) / 2) s
      fftRec o (made o k).tab (l + 1) (b + 3 * (2 ^ (l + 3) / 4)) s)

theorem reverse_same (o : Ops F) {k B : Nat} {g : Heap (Val F)} (hg : Holds o k B g) (n : Nat) (x : List F) :
    bitReverseM ⟨B, 0⟩ g n x = bitReverse (made o k).seed n x := by
  unfold bitReverseM bitReverse
  apply forN_congr
  intro i s _
  unfold reverseStepM reverseStep
  simp only [load_seed hg.seed]

theorem complex_same (o : Ops F) {k B : Nat} {g : Heap (Val F)} (hg : Holds o k B g) (forward : Bool) (s : Cx F) :
    complex2M o (objOf k B) g forward s = complex2 o (made o k) forward s := by
  unfold complex2M complex2
  simp only [show (objOf k B).logn = k from rfl, show (made o k).logn = k from rfl, fft_same o hg k (Nat.le_refl k)]
  congr 1
  funext s
  unfold unshuffleM unshuffle
  simp only [show (objOf k B).logn = k from rfl, show (made o k).logn = k from rfl, show (objOf k B).seed = ⟨B, 0⟩ from rfl,
    reverse_same o hg]

theorem complexFFT_same (o : Ops F) {k B : Nat} {g : Heap (Val F)} (hg : Holds o k B g) (x : List F) (size : Int)
    (forward : Bool) (buffer : List F) (bufSize : Int) :
    complexFFTM o (objOf k B) g x size forward buffer bufSize = complexFFT o (made o k) x size forward buffer bufSize := by
  unfold complexFFTM complexFFT onHalvesM onHalves
  simp only [complex_same o hg, show (objOf k B).n = 2 ^ k from rfl, show (made o k).n = 2 ^ k from rfl]

theorem compute_same (o : Ops F) {k B : Nat} {g : Heap (Val F)} (hg : Holds o k B g) (x : List F) (size : Int)
    (forward : Bool) (buffer : List F) (bufSize : Int) :
    computeM o (objOf k B) g x size forward buffer bufSize = compute o (made o k) x size forward buffer bufSize := by
  unfold computeM compute
  simp only [complexFFT_same o hg, show ∀ (f : Bool) (y : List F), middle o (plain (objOf k B)) f y = middle o (made o k) f y
    from fun _ _ => rfl, show (objOf k B).n = 2 ^ k from rfl, show (made o k).n = 2 ^ k from rfl]

/-! ## Destructor -/

theorem free_of {h : Heap (Val F)} {b : Nat} {l : List (Option (Val F))} (hb : h[b]? = some (some l)) :
    free h ⟨b, 0⟩ = .ok (h.set b none) := by
  unfold free
  simp only [hb, if_true]

theorem free_twice {h : Heap (Val F)} {b : Nat} (hb : h[b]? = some none) : free h ⟨b, 0⟩ = .error .ub := by
  unfold free
  simp only [hb]

/-- After the destructor. -/
structure Gone (g g' : Heap (Val F)) (B n : Nat) : Prop where
  length : g'.length = g.length
  freed : ∀ b, B ≤ b → b < B + n → g'[b]? = some none
  others : ∀ b, b < B ∨ B + n ≤ b → g'[b]? = g[b]?

theorem set_get {A : Type} (l : List A) (b c : Nat) (x : A) (hb : b < l.length) :
    (l.set b x)[c]? = if c = b then some x else l[c]? := by
  by_cases e : c = b
  · rw [if_pos e, e, List.getElem?_set_self hb]
  · rw [if_neg e, List.getElem?_set_ne (fun h => e h.symm)]

theorem destroy_ok (o : Ops F) {k B : Nat} {g : Heap (Val F)} (hg : Holds o k B g) :
    ∃ g', destroyM (objOf k B) g = .ok g' ∧ Gone g g' B (if k < 4 then 1 else k - 1) := by
  have hB := (List.getElem?_eq_some_iff.mp hg.seed).1
  unfold destroyM
  rw [show (objOf k B).seed = ⟨B, 0⟩ from rfl, free_of hg.seed, ok_bind]
  by_cases h4 : k < 4
  · rw [if_pos h4, show (objOf k B).tab = none from if_pos h4]
    refine ⟨_, rfl, List.length_set, fun b h1 h2 => ?_, fun b h => ?_⟩
    · rw [set_get _ _ _ _ hB, if_pos (by omega)]
    · rw [set_get _ _ _ _ hB, if_neg (by omega)]
  · rw [if_neg h4, show (objOf k B).tab = some ⟨B + 1, 0⟩ from if_neg h4]
    simp only
    rw [show (objOf k B).logn = k from rfl]
    have h4 : 4 ≤ k := by omega
    have step := safe_forN (f := fun i h => (do
        let p ← loadPtr h (plus ⟨B + 1, 0⟩ i)
        free h p : Exec (Heap (Val F))))
      (fun i h => h.length = g.length ∧ ∀ b : Nat, h[b]? = if b = B ∨ (B + 2 + (k - 3) - i ≤ b ∧ b < B + 2 + (k - 3)) then some none
        else g[b]?) (k - 3) (by
        rintro i h hi ⟨p1, p2⟩
        have q1 : h[B + 1]? = some (some (ptrs k (B + 2) (k - 3))) := by
          rw [p2, if_neg (by omega), hg.tab h4]
        have q2 : h[B + 2 + (k - 4 - i)]? = some (some (level o (2 ^ (k - (k - 4 - i) - 3)))) := by
          rw [p2, if_neg (by omega), hg.lev h4 _ (by omega)]
        refine ⟨h.set (B + 2 + (k - 4 - i)) none, ?_, by rw [List.length_set, p1], fun b => ?_⟩
        · rw [loadPtr_of (a := ⟨B + 2 + (k - 4 - i), 0⟩) q1 (by
            unfold ptrs
            rw [vec_get _ (by omega), if_pos (by omega)]), ok_bind, free_of q2]
        · rw [set_get _ _ _ _ (List.getElem?_eq_some_iff.mp q2).1, p2]
          split_ifs <;> first | rfl | omega) (g.set B none) ⟨List.length_set, fun b => by
            rw [set_get _ _ _ _ hB]
            split_ifs <;> first | rfl | omega⟩
    obtain ⟨h, e, p1, p2⟩ := step
    rw [e, ok_bind]
    have q1 : h[B + 1]? = some (some (ptrs k (B + 2) (k - 3))) := by
      rw [p2, if_neg (by omega), hg.tab h4]
    rw [free_of q1]
    have hl := (List.getElem?_eq_some_iff.mp q1).1
    refine ⟨_, rfl, by rw [List.length_set, p1], fun b h1 h2 => ?_, fun b hb => ?_⟩
    · rw [set_get _ _ _ _ hl, p2]
      split_ifs <;> first | rfl | omega
    · rw [set_get _ _ _ _ hl, p2]
      split_ifs <;> first | rfl | omega

theorem destroy_again {k B n : Nat} {g g' : Heap (Val F)} (hg : Gone g g' B n) (hn : 1 ≤ n) :
    destroyM (objOf k B) g' = .error .ub := by
  unfold destroyM
  rw [show (objOf k B).seed = ⟨B, 0⟩ from rfl, free_twice (hg.freed B (Nat.le_refl B) (by omega))]
  rfl

end Verif.SrfftMem
