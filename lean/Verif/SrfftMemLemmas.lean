import Verif.SrfftMemModel
import Verif.SrfftShape
import Verif.VecMemLemmas

/-!
# The tables of the transform in memory
-/

namespace Verif.SrfftMem

open Mat (Heap Addr load poke alloc free peek)
open Srfft

variable {F : Type}

theorem plus_zero (b i : Nat) : plus ⟨b, 0⟩ i = ⟨b, ((i : Nat) : Int)⟩ := by
  unfold plus
  simp only [Int.zero_add]

theorem plus_nat (b j i : Nat) : plus ⟨b, ((j : Nat) : Int)⟩ i = ⟨b, ((j + i : Nat) : Int)⟩ := by
  unfold plus
  simp only [Addr.mk.injEq, true_and]
  omega

/-! ## Loops -/

/-- Two loops that do the same on states that belong together. -/
theorem forN_map {σ τ : Type} {f : Nat → σ → Exec σ} {g : Nat → τ → Exec τ} (φ : σ → τ) (P : Nat → σ → Prop) :
    ∀ (n : Nat), (∀ i s, i < n → P i s → g i (φ s) = (f i s).map φ) →
      (∀ i s s', i < n → P i s → f i s = .ok s' → P (i + 1) s') → ∀ s, P 0 s →
      forN n g (φ s) = (forN n f s).map φ ∧ ∀ s', forN n f s = .ok s' → P n s'
  | 0, _, _, s, hs => ⟨rfl, fun s' e => by cases e; exact hs⟩
  | n + 1, h1, h2, s, hs => by
    obtain ⟨e, q⟩ := forN_map φ P n (fun i s hi => h1 i s (by omega)) (fun i s s' hi => h2 i s s' (by omega)) s hs
    unfold forN at e q ⊢
    rw [List.range_succ, List.foldlM_append, List.foldlM_append, e]
    cases ef : (List.range n).foldlM (fun s i => f i s) s with
    | error x => exact ⟨rfl, fun s' e' => by cases e'⟩
    | ok s1 =>
      have p1 := q s1 ef
      have e1 := h1 n s1 (by omega) p1
      show ([n].foldlM (fun s i => g i s) (φ s1) = _ ∧ _)
      rw [ok_bind, List.foldlM_cons, List.foldlM_cons, e1]
      cases ef1 : f n s1 with
      | error x => exact ⟨rfl, fun s' e' => by cases e'⟩
      | ok s2 => exact ⟨rfl, fun s' e' => by cases e'; exact h2 n s1 s2 (by omega) p1 ef1⟩

theorem forN_same {σ τ : Type} {f : Nat → σ → Exec σ} {g : Nat → τ → Exec τ} (φ : σ → τ) (n : Nat)
    (h : ∀ i s, i < n → g i (φ s) = (f i s).map φ) (s : σ) : forN n g (φ s) = (forN n f s).map φ :=
  (forN_map φ (fun _ _ => True) n (fun i s hi _ => h i s hi) (fun _ _ _ _ _ _ => trivial) s trivial).1

theorem map_id {α : Type} (x : Exec α) : x.map id = x := by cases x <;> rfl

theorem forN_congr {σ : Type} {f g : Nat → σ → Exec σ} (n : Nat) (h : ∀ i s, i < n → g i s = f i s) (s : σ) :
    forN n g s = forN n f s := by
  have := forN_same (f := f) (g := g) id n (fun i s hi => by rw [map_id]; exact h i s hi) s
  rw [map_id] at this
  exact this

/-! ## The table of reversed numbers -/

/-- The block of `brseed_`. -/
def seedCells (seed : List (Option Nat)) : List (Option (Val F)) := seed.map (Option.map .int)

theorem load_seed {h : Heap (Val F)} {b : Nat} {seed : List (Option Nat)} (hb : h[b]? = some (some (seedCells seed))) (i : Nat) :
    loadInt h (plus ⟨b, 0⟩ i) = seedAt seed i := by
  rw [plus_zero]
  unfold loadInt seedAt load peek aget
  rw [hb]
  simp only [Int.natCast_nonneg, if_true, Int.toNat_natCast, seedCells, List.getElem?_map]
  rw [if_neg (by omega)]
  cases seed[i]? with
  | none => rfl
  | some v => cases v <;> rfl

theorem poke_seed (H : Heap (Val F)) (seed : List (Option Nat)) (i v : Nat) :
    poke (H ++ [some (seedCells seed)]) (plus ⟨H.length, 0⟩ i) (some (.int v)) =
      (aset seed (i : Int) (some v)).map (fun s => H ++ [some (seedCells s)]) := by
  rw [plus_zero]
  by_cases hi : i < seed.length
  · rw [VecMem.poke_block (l := seedCells seed) (by simp) (by rw [seedCells, List.length_map]; exact hi), aset_nat hi,
      VecMem.set_last]
    show _ = Except.ok (H ++ [some (seedCells _)])
    rw [seedCells, seedCells, List.map_set]
    rfl
  · unfold poke aset
    simp only [List.getElem?_append_right (Nat.le_refl _), Nat.sub_self, List.getElem?_cons_zero]
    rw [if_neg (by rw [seedCells, List.length_map]; omega), if_neg (by omega), if_neg (by rw [Int.toNat_natCast]; exact hi)]
    rfl

theorem seed_step (H : Heap (Val F)) (imax i : Nat) (seed : List (Option Nat)) :
    seedStepM ⟨H.length, 0⟩ imax i (H ++ [some (seedCells seed)]) =
      (seedStep imax i seed).map (fun s => H ++ [some (seedCells s)]) := by
  have last : ∀ s : List (Option Nat), (H ++ [some (seedCells s)] : Heap (Val F))[H.length]? = some (some (seedCells s)) := by
    intro s; simp
  unfold seedStepM seedStep
  rw [load_seed (last seed)]
  unfold seedAt
  cases e : aget seed (i : Int) with
  | error x => rfl
  | ok v =>
    cases v with
    | none => rfl
    | some v =>
      simp only [ok_bind]
      rw [poke_seed]
      have hi : i < seed.length := by
        have := (aget_ok e).2
        rw [Int.toNat_natCast] at this
        exact this.1
      rw [aset_nat hi]
      show (do
        let v ← loadInt (H ++ [some (seedCells (seed.set i (some (v * 2))))]) (plus ⟨H.length, 0⟩ i)
        poke _ _ _) = _
      rw [load_seed (last _)]
      unfold seedAt
      rw [aget_nat (List.getElem?_set_self hi)]
      simp only [ok_bind]
      rw [poke_seed]

theorem bind_map {α β γ : Type} (x : Exec α) (φ : α → β) (f : β → Exec γ) : (x.map φ) >>= f = x >>= fun a => f (φ a) := by
  cases x <;> rfl

theorem map_bind {α β γ : Type} (x : Exec α) (f : α → Exec β) (φ : β → γ) : (x >>= f).map φ = x >>= fun a => (f a).map φ := by
  cases x <;> rfl

theorem seed_table (H : Heap (Val F)) (logn : Nat) :
    seedTableM logn H = (seedTable logn).map (fun s => (⟨H.length, 0⟩, H ++ [some (seedCells s)])) := by
  unfold seedTableM seedTable malloc alloc
  simp only
  rw [Nat.mul_div_cancel_left _ (by omega)]
  generalize hc : 2 ^ (logn / 2 + logn % 2) = c
  have e0 : (List.replicate c none : List (Option (Val F))) = seedCells (List.replicate c none) := by
    rw [seedCells, List.map_replicate]
    rfl
  rw [e0, poke_seed, bind_map, map_bind]
  congr 1
  funext s
  rw [poke_seed, bind_map, map_bind]
  congr 1
  funext s
  rw [forN_same (f := fun j seed => forN (2 ^ (j + 1)) (seedStep (2 ^ (j + 1))) seed)
    (fun s => H ++ [some (seedCells s)]) _ (fun j s _ => forN_same _ _ (fun i s _ => seed_step H _ i s) s) s, bind_map]
  cases forN (logn / 2 + logn % 2 - 1) (fun j seed => forN (2 ^ (j + 1)) (seedStep (2 ^ (j + 1))) seed) s <;> rfl

/-! ## The tables of a level -/

/-- The six members by number. -/
def part (t : Nat) (e : Six F) : F :=
  match t with
  | 0 => e.c
  | 1 => e.spc
  | 2 => e.smc
  | 3 => e.c3
  | 4 => e.spc3
  | _ => e.smc3

/-- Six tables of `nel` elements, one after the other. -/
def grid {A : Type} (nel : Nat) (g : Nat → Nat → A) : List A := vec (6 * nel) (fun q => g (q / nel) (q % nel))

theorem grid_length {A : Type} (nel : Nat) (g : Nat → Nat → A) : (grid nel g).length = 6 * nel := vec_length _ _

theorem place_lt {nel t j : Nat} (ht : t < 6) (hj : j < nel) : t * nel + j < 6 * nel := by
  have := Nat.mul_le_mul_right nel (show t + 1 ≤ 6 by omega)
  rw [Nat.add_mul] at this
  omega

theorem place_div {nel t j : Nat} (hj : j < nel) : (t * nel + j) / nel = t := by
  rw [Nat.mul_comm, Nat.mul_add_div (by omega), Nat.div_eq_of_lt hj, Nat.add_zero]

theorem place_mod {nel t j : Nat} (hj : j < nel) : (t * nel + j) % nel = j := by
  rw [Nat.mul_comm, Nat.mul_add_mod, Nat.mod_eq_of_lt hj]

theorem grid_get {A : Type} {nel t j : Nat} (g : Nat → Nat → A) (ht : t < 6) (hj : j < nel) :
    (grid nel g)[t * nel + j]? = some (g t j) := by
  unfold grid
  rw [vec_get _ (place_lt ht hj), place_div hj, place_mod hj]

theorem grid_set {A : Type} {nel t j : Nat} (g : Nat → Nat → A) (ht : t < 6) (hj : j < nel) (v : A) :
    (grid nel g).set (t * nel + j) v = grid nel (fun t' j' => if t' = t ∧ j' = j then v else g t' j') := by
  unfold grid
  apply eq_vec (by rw [List.length_set, vec_length])
  intro q hq
  by_cases e : t * nel + j = q
  · subst e
    rw [List.getElem?_set_self (by rw [vec_length]; exact hq), place_div hj, place_mod hj]
    exact congrArg some (if_pos ⟨rfl, rfl⟩).symm
  · rw [List.getElem?_set_ne e, vec_get _ hq]
    refine congrArg some (if_neg ?_).symm
    rintro ⟨h1, h2⟩
    have := Nat.div_add_mod q nel
    rw [h1, h2, Nat.mul_comm] at this
    exact e this

theorem grid_congr {A : Type} {nel : Nat} {g k : Nat → Nat → A} (h : ∀ t j, t < 6 → j < nel → g t j = k t j) :
    grid nel g = grid nel k := by
  unfold grid
  apply vec_congr
  intro q hq
  have hn : 0 < nel := by omega
  exact h _ _ (Nat.div_lt_of_lt_mul (by rw [Nat.mul_comm]; exact hq)) (Nat.mod_lt _ hn)

/-- The six pointers, advanced `j` times. -/
def at' (b nel j : Nat) : Six Addr :=
  ⟨⟨b, (0 * nel + j : Nat)⟩, ⟨b, (1 * nel + j : Nat)⟩, ⟨b, (2 * nel + j : Nat)⟩, ⟨b, (3 * nel + j : Nat)⟩,
    ⟨b, (4 * nel + j : Nat)⟩, ⟨b, (5 * nel + j : Nat)⟩⟩

theorem at_c (b nel j : Nat) : (at' b nel j).c = ⟨b, (0 * nel + j : Nat)⟩ := rfl

theorem at_spc (b nel j : Nat) : (at' b nel j).spc = ⟨b, (1 * nel + j : Nat)⟩ := rfl

theorem at_smc (b nel j : Nat) : (at' b nel j).smc = ⟨b, (2 * nel + j : Nat)⟩ := rfl

theorem at_c3 (b nel j : Nat) : (at' b nel j).c3 = ⟨b, (3 * nel + j : Nat)⟩ := rfl

theorem at_spc3 (b nel j : Nat) : (at' b nel j).spc3 = ⟨b, (4 * nel + j : Nat)⟩ := rfl

theorem at_smc3 (b nel j : Nat) : (at' b nel j).smc3 = ⟨b, (5 * nel + j : Nat)⟩ := rfl

theorem starts_at (b nel : Nat) : starts ⟨b, 0⟩ nel = at' b nel 0 := by
  unfold starts at' plus
  simp only [Six.mk.injEq, Addr.mk.injEq, true_and]
  omega

theorem advance_at (b nel j : Nat) : advance (at' b nel j) = at' b nel (j + 1) := by
  unfold advance at' plus
  simp only [Six.mk.injEq, Addr.mk.injEq, true_and]
  omega

theorem poke_grid (H : Heap (Val F)) {nel t j : Nat} (g : Nat → Nat → Option (Val F)) (ht : t < 6) (hj : j < nel)
    (v : Option (Val F)) :
    poke (H ++ [some (grid nel g)]) ⟨H.length, (t * nel + j : Nat)⟩ v =
      .ok (H ++ [some (grid nel (fun t' j' => if t' = t ∧ j' = j then v else g t' j'))]) := by
  rw [VecMem.poke_block (l := grid nel g) (by simp) (by rw [grid_length]; exact place_lt ht hj), VecMem.set_last,
    grid_set g ht hj]

/-- How far the pointers are before the iteration for `n = i + 1`. -/
def moved (a i : Nat) : Nat := if i < a then i else i - 1

/-- The element for this place. -/
def atPlace (o : Ops F) (a j : Nat) : Six F := entry o (8 * a) (if j + 1 < a then j + 1 else j + 2)

/-- The block of a level. -/
def level (o : Ops F) (a : Nat) : List (Option (Val F)) :=
  grid (2 * a - 2) (fun t j => some (.num (part t (atPlace o a j))))

theorem six_cases {t : Nat} (h : t < 6) : t = 0 ∨ t = 1 ∨ t = 2 ∨ t = 3 ∨ t = 4 ∨ t = 5 := by omega

theorem fill_step (o : Ops F) (H : Heap (Val F)) {a i : Nat} (ha : 2 ≤ a) (hi : i < 2 * a - 1) :
    fillStep o (8 * a) i (at' H.length (2 * a - 2) (moved a i),
      H ++ [some (grid (2 * a - 2) (fun t j => if j < moved a i then some (.num (part t (atPlace o a j))) else none))]) =
    .ok (at' H.length (2 * a - 2) (moved a (i + 1)),
      H ++ [some (grid (2 * a - 2) (fun t j => if j < moved a (i + 1) then some (.num (part t (atPlace o a j))) else none))]) := by
  unfold fillStep
  by_cases h1 : i + 1 = a
  · rw [if_pos (by omega), show moved a (i + 1) = moved a i by unfold moved; rw [if_neg (by omega), if_pos (by omega)]; rfl]
  · rw [if_neg (by omega), show moved a (i + 1) = moved a i + 1 by unfold moved; split_ifs <;> omega]
    have hm : moved a i < 2 * a - 2 := by unfold moved; split_ifs <;> omega
    have he : entry o (8 * a) (i + 1) = atPlace o a (moved a i) := by
      unfold atPlace moved
      congr 1
      split_ifs <;> omega
    simp only [he]
    generalize moved a i = J at *
    simp only [at_c, at_spc, at_smc, at_c3, at_spc3, at_smc3]
    rw [poke_grid H _ (by omega) hm, ok_bind, poke_grid H _ (by omega) hm, ok_bind, poke_grid H _ (by omega) hm, ok_bind,
      poke_grid H _ (by omega) hm, ok_bind, poke_grid H _ (by omega) hm, ok_bind, poke_grid H _ (by omega) hm, ok_bind,
      advance_at]
    congr 4
    refine congrArg some (grid_congr fun t j ht hj => ?_)
    by_cases hJ : j = J
    · subst hJ
      rw [if_pos (show j < j + 1 by omega)]
      rcases six_cases ht with rfl | rfl | rfl | rfl | rfl | rfl <;> simp [part]
    · simp only [hJ, and_false, if_false]
      split_ifs <;> first | rfl | omega

theorem fill_all (o : Ops F) (H : Heap (Val F)) {a : Nat} (ha : 2 ≤ a) :
    forN (8 * a / 4 - 1) (fillStep o (8 * a)) (starts ⟨H.length, 0⟩ (8 * a / 4 - 2),
      H ++ [some (List.replicate (6 * (8 * a / 4 - 2)) none)]) =
    .ok (at' H.length (2 * a - 2) (2 * a - 2), H ++ [some (level o a)]) := by
  rw [show 8 * a / 4 = 2 * a by omega, starts_at]
  have e := forN_trace (n := 2 * a - 1) (f := fillStep o (8 * a)) (fun i => (at' H.length (2 * a - 2) (moved a i),
      H ++ [some (grid (2 * a - 2) (fun t j => if j < moved a i then some (.num (part t (atPlace o a j))) else none))]))
    (fun i hi => fill_step o H ha hi)
  have m0 : moved a 0 = 0 := by unfold moved; rw [if_pos (by omega)]
  have m1 : moved a (2 * a - 1) = 2 * a - 2 := by unfold moved; rw [if_neg (by omega)]; omega
  simp only [m0, m1] at e
  have g0 : (List.replicate (6 * (2 * a - 2)) none : List (Option (Val F))) =
      grid (2 * a - 2) (fun t j => if j < 0 then some (.num (part t (atPlace o a j))) else none) := by
    simp only [Nat.not_lt_zero, if_false]
    exact eq_vec (by rw [List.length_replicate]) (fun i hi => by rw [List.getElem?_replicate, if_pos hi])
  rw [g0, e]
  congr 4
  refine congrArg some (grid_congr fun t j _ hj => ?_)
  rw [if_pos hj]

end Verif.SrfftMem
