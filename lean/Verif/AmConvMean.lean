import Verif.AmConvReal
import Verif.AmConvNet
import Verif.NnetSpec
import Verif.SoftmaxProps

/-!
# Lemmas: what the layers compute
-/

namespace Verif.Tool

open Verif.Nnet (Layer realOps numCols)
open Verif.Nnet.Spec
open Kaldi

/-- The product of a row with a matrix. -/
noncomputable def times (x : List ℝ) (B : List (List ℝ)) : List ℝ :=
  (List.range (numCols B)).map fun j => (List.zipWith (fun a row => a * row.getD j 0) x B).sum

/-- The converter's arithmetic without rounding. -/
structure Exact (num : ANum ℝ) : Prop where
  neg : ∀ x, num.neg x = -x
  add : ∀ x y, num.add x y = x + y
  mul : ∀ x y, num.mul x y = x * y
  rsqrt : ∀ x, 0 < x → num.rsqrt x = (Real.sqrt x)⁻¹

theorem transposed_eq {W : List (List ℝ)} {d : Nat} (hW : W ≠ []) (h : ∀ r ∈ W, r.length = d) :
    transposed W = (List.range d).map fun j => W.map fun row => row.getD j 0 := by
  have hn : numCols W = d := by
    cases W with
    | nil => exact absurd rfl hW
    | cons r W => exact h r (List.mem_cons_self ..)
  unfold transposed
  rw [hn]
  apply List.map_congr_left
  intro j hj
  have hj : j < d := List.mem_range.mp hj
  clear hW hn
  induction W with
  | nil => rfl
  | cons r W ih =>
    have hr := h r (List.mem_cons_self ..)
    rw [List.filterMap_cons, List.getElem?_eq_getElem (by omega), List.map_cons,
      ih fun r hr => h r (List.mem_cons_of_mem _ hr)]
    simp [List.getD, List.getElem?_eq_getElem (show j < r.length by omega)]

theorem zipWith_range (f : ℝ → ℝ → ℝ) {x row : List ℝ} (h : row.length = x.length) :
    List.zipWith (fun a j => f a (row.getD j 0)) x (List.range x.length) = List.zipWith f x row := by
  apply List.ext_getElem
  · simp [h]
  · intro i h1 h2
    simp only [List.length_zipWith, List.length_range] at h1 h2
    simp [List.getD, List.getElem?_eq_getElem (show i < row.length by omega)]

theorem times_transposed {W : List (List ℝ)} {x : List ℝ} (hW : W ≠ []) (hx : 1 ≤ x.length)
    (h : ∀ r ∈ W, r.length = x.length) :
    times x (transposed W) = W.map fun row => (List.zipWith (· * ·) row x).sum := by
  rw [transposed_eq hW h]
  unfold times
  have hn : numCols ((List.range x.length).map fun j => W.map fun row => row.getD j 0) = W.length := by
    obtain ⟨k, hk⟩ : ∃ k, x.length = k + 1 := ⟨x.length - 1, by omega⟩
    rw [hk, List.range_succ_eq_map, List.map_cons]
    show (W.map _).length = _
    rw [List.length_map]
  rw [hn]
  apply List.ext_getElem
  · simp
  · intro i h1 h2
    have hi : i < W.length := by simpa using h2
    rw [List.getElem_map, List.getElem_map, List.getElem_range, List.zipWith_map_right]
    congr 1
    have e : (fun a j => a * (W.map fun row => row.getD j 0).getD i 0) = fun (a : ℝ) (j : Nat) => a * (W[i].getD j 0) := by
      funext a j
      congr 1
      simp [List.getD, List.getElem?_eq_getElem hi]
    have hl : W[i].length = x.length := h _ (List.getElem_mem hi)
    rw [e, zipWith_range (fun a b => a * b) hl, List.zipWith_comm]
    congr 1
    funext a b
    exact mul_comm b a

theorem zip_zip (x mean var : List ℝ) (f : ℝ → ℝ) :
    List.zipWith (· + ·) (List.zipWith (· * ·) x (var.map f)) (List.zipWith (· * ·) (mean.map fun m => -m) (var.map f)) =
      List.zipWith (fun v (p : ℝ × ℝ) => (v - p.1) * f p.2) x (List.zip mean var) := by
  induction x generalizing mean var with
  | nil => simp
  | cons a x ih =>
    cases mean with
    | nil => simp
    | cons m mean =>
      cases var with
      | nil => simp
      | cons s var =>
        simp only [List.map_cons, List.zipWith_cons_cons, List.zip_cons_cons]
        rw [ih]
        congr 1
        ring

theorem zipWith_congr_right {α β γ : Type} {f g : α → β → γ} : ∀ {xs : List α} {ys : List β},
    (∀ y ∈ ys, ∀ x, f x y = g x y) → List.zipWith f xs ys = List.zipWith g xs ys
  | [], _, _ => by simp
  | _ :: _, [], _ => by simp
  | x :: xs, y :: ys, h => by
    rw [List.zipWith_cons_cons, List.zipWith_cons_cons, h y (List.mem_cons_self ..),
      zipWith_congr_right fun z hz => h z (List.mem_cons_of_mem _ hz)]

/-- The layer of a component does what the component does. -/
theorem pointwise_comp {num : ANum ℝ} (hx : Exact num) {g : List (List ℝ) → List (List ℝ) → List (List ℝ)}
    {c : Comp ℝ} (hp : c.Positive) {x : List ℝ} {e : Nat} (h1 : 1 ≤ x.length) (he : 1 ≤ e) (h : c.Takes x.length e) :
    pointwise (realOps g) times x (layerOfComp num c) = c.apply x ∧ (c.apply x).length = e := by
  cases c with
  | affine W b =>
    obtain ⟨hW, hb, hr⟩ := h
    have hW0 : W ≠ [] := by intro h; subst h; simp at hW; omega
    refine ⟨?_, ?_⟩
    · show List.zipWith (· + ·) (times x (transposed W)) b = _
      rw [times_transposed hW0 h1 hr]
      rfl
    · show (List.zipWith _ _ _).length = e
      rw [List.length_zipWith, List.length_map]
      omega
  | relu =>
    refine ⟨?_, ?_⟩
    · show (x.map fun v => if (@decide (v < 0) (Classical.propDecidable _)) = true then 0 else v) = x.map _
      apply List.map_congr_left
      intro v _
      by_cases hv : v < 0
      · rw [if_pos (by simpa using hv), max_eq_right hv.le]
      · rw [if_neg (by simpa using hv), max_eq_left (not_lt.mp hv)]
    · show (x.map _).length = e
      rw [List.length_map]
      exact h.symm
  | batchNorm mean var eps rms =>
    obtain ⟨hm, hv, rfl⟩ := h
    refine ⟨?_, ?_⟩
    · show List.zipWith (· + ·) (List.zipWith (· * ·) x (var.map fun v => num.mul (num.rsqrt (num.add v eps)) rms))
        (List.zipWith num.mul (mean.map num.neg) (var.map fun v => num.mul (num.rsqrt (num.add v eps)) rms)) = _
      have e1 : (var.map fun v => num.mul (num.rsqrt (num.add v eps)) rms) =
          var.map fun v => (Real.sqrt (v + eps))⁻¹ * rms := by
        apply List.map_congr_left
        intro s hs
        rw [hx.mul, hx.add, hx.rsqrt _ (hp s hs)]
      have e2 : num.mul = fun x y => x * y := by funext x y; exact hx.mul x y
      have e3 : num.neg = fun x => -x := by funext x; exact hx.neg x
      rw [e1, e2, e3, zip_zip]
      apply zipWith_congr_right
      intro p _ v
      rw [div_eq_mul_inv, mul_assoc]
    · show (List.zipWith _ _ _).length = _
      rw [List.length_zipWith, List.length_zip]
      omega
  | logSoftmax =>
    refine ⟨?_, ?_⟩
    · show (x.map fun v => v - Real.log ((x.map Real.exp).foldl (· + ·) 0)) = x.map _
      rw [Nnet.foldl_add_sum, zero_add]
    · show (x.map _).length = e
      rw [List.length_map]
      exact h.symm

theorem layerOn_comp {num : ANum ℝ} {o : Nnet.Ops ℝ} {vm : List ℝ → List (List ℝ) → List ℝ} (x : Int → List ℝ)
    (c : Comp ℝ) : layerOn o vm x (layerOfComp num c) = fun t => pointwise o vm (x t) (layerOfComp num c) := by
  cases c <;> rfl

theorem flatMap_length {α : Type} {d : Nat} {f : α → List ℝ} : ∀ {l : List α}, (∀ a ∈ l, (f a).length = d) →
    (l.flatMap f).length = l.length * d
  | [], _ => by simp
  | a :: l, h => by
    rw [List.flatMap_cons, List.length_append, h a (List.mem_cons_self ..),
      flatMap_length fun b hb => h b (List.mem_cons_of_mem _ hb), List.length_cons, Nat.add_mul]
    omega

theorem lastName_cons (prev : Txt) (n : Node) (ns : List Node) : lastName prev (n :: ns) = lastName n.name ns := by
  unfold lastName
  rw [List.map_cons]
  cases ns.map Node.name <;> rfl

theorem comp_unique {R : Type} {cs : List (Txt × Comp R)} (hd : (cs.map Prod.fst).Nodup) {k : Txt} {c c' : Comp R}
    (h1 : (k, c) ∈ cs) (h2 : (k, c') ∈ cs) : c = c' := by
  have a := (comps_get (f := fun x : Comp R => x) (cs := cs) [] k).2 hd
  exact Option.some.inj ((a c h1).symm.trans (a c' h2))

theorem width_pos {n : Node} {d : Nat} {prev : Txt} {ns : List Node} (hc : Chain prev (n :: ns)) (hd : 1 ≤ d) :
    1 ≤ n.input.width d := by
  cases hc with
  | plain hi _ => rw [hi]; exact hd
  | context hi h0 _ _ =>
    rw [hi]
    exact Nat.mul_pos (List.length_pos_iff.mpr h0) hd

theorem fit_pos {R : Type} {cs : List (Txt × Comp R)} {d e : Nat} {ns : List Node} (h : Fit cs d ns e) : 1 ≤ d := by
  cases h <;> assumption

/-- The layers of a chain compute what the network computes. -/
theorem series_chain {num : ANum ℝ} (hx : Exact num) {g : List (List ℝ) → List (List ℝ) → List (List ℝ)}
    {cs : List (Txt × Comp ℝ)} (hd : (cs.map Prod.fst).Nodup) (hp : ∀ p ∈ cs, p.2.Positive)
    {v : Txt → Int → List ℝ} {ns : List Node} {ls : List (Layer ℝ)} {l r : Int} (hl : Layers num cs ns ls l r) :
    ∀ {prev : Txt} {d e : Nat}, Chain prev ns → Fit cs d ns e →
    (∀ n ∈ ns, ∃ c, (n.comp, c) ∈ cs ∧ ∀ t, v n.name t = c.apply (n.input.value v t)) →
    (∀ t, (v prev t).length = d) →
    series (realOps g) times ls (v prev) = v (lastName prev ns) ∧ ∀ t, (v (lastName prev ns) t).length = e := by
  induction hl with
  | nil =>
    intro prev d e _ hf _ hlen
    cases hf
    exact ⟨rfl, hlen⟩
  | @plain n p c ns ls l r hi hc _ ih =>
    intro prev d e hch hf hv hlen
    obtain ⟨c', hc', hv'⟩ := hv n (List.mem_cons_self ..)
    obtain rfl := comp_unique hd hc hc'
    cases hf with
    | @cons _ e' _ _ _ c' h1 hc' ht hf =>
      obtain rfl := comp_unique hd hc hc'
      cases hch with
      | context hi' => rw [hi] at hi'; cases hi'
      | plain hi' hch =>
        have key : ∀ t, pointwise (realOps g) times (v prev t) (layerOfComp num c) = v n.name t ∧
            (v n.name t).length = e' := by
          intro t
          have hval : n.input.value v t = v prev t := by
            rw [hi']
            show v prev (t + 0) = _
            rw [Int.add_zero]
          have ht' : c.Takes (v prev t).length e' := by
            rw [hlen t]
            rw [hi'] at ht
            exact ht
          obtain ⟨k1, k2⟩ := pointwise_comp hx (g := g) (hp _ hc) (by rw [hlen t]; exact h1) (fit_pos hf) ht'
          rw [hv' t, hval]
          exact ⟨k1, k2⟩
        rw [lastName_cons]
        have := ih hch hf (fun m hm => hv m (List.mem_cons_of_mem _ hm)) (fun t => (key t).2)
        refine ⟨?_, this.2⟩
        show series (realOps g) times ls (layerOn (realOps g) times (v prev) (layerOfComp num c)) = _
        rw [layerOn_comp, show (fun t => pointwise (realOps g) times (v prev t) (layerOfComp num c)) = v n.name from
          funext fun t => (key t).1]
        exact this.1
  | @context n ps c ns ls l r hi hc _ ih =>
    intro prev d e hch hf hv hlen
    obtain ⟨c', hc', hv'⟩ := hv n (List.mem_cons_self ..)
    obtain rfl := comp_unique hd hc hc'
    have hw := fun h1 => width_pos (d := d) hch h1
    cases hf with
    | @cons _ e' _ _ _ c' h1 hc' ht hf =>
      obtain rfl := comp_unique hd hc hc'
      cases hch with
      | plain hi' => rw [hi] at hi'; cases hi'
      | @context _ _ _ ps' hi' h0 hps hch =>
        have hps' : ps' = ps := by rw [hi] at hi'; cases hi'; rfl
        subst hps'
        have hval : ∀ t, n.input.value v t = (shifts ps').flatMap fun k => v prev (t + k) := by
          intro t
          rw [hi]
          show (ps'.flatMap fun p => p.value v t) = _
          unfold shifts
          rw [List.flatMap_map]
          clear hi hi' h0 ht hw
          induction ps' with
          | nil => rfl
          | cons p ps ih =>
            rw [List.flatMap_cons, List.flatMap_cons, ih fun q hq => hps q (List.mem_cons_of_mem _ hq)]
            congr 1
            unfold Part.value
            rw [hps p (List.mem_cons_self ..)]
        have hlen' : ∀ t, (n.input.value v t).length = n.input.width d := by
          intro t
          rw [hval, flatMap_length (d := d) fun k _ => hlen _, hi]
          show _ = ps'.length * d
          unfold shifts
          rw [List.length_map]
        have key : ∀ t, pointwise (realOps g) times (n.input.value v t) (layerOfComp num c) = v n.name t ∧
            (v n.name t).length = e' := by
          intro t
          obtain ⟨k1, k2⟩ := pointwise_comp hx (g := g) (x := n.input.value v t) (hp _ hc)
            (by rw [hlen' t]; exact hw h1) (fit_pos hf) (by rw [hlen' t]; exact ht)
          rw [hv' t]
          exact ⟨k1, k2⟩
        rw [lastName_cons]
        have := ih hch hf (fun m hm => hv m (List.mem_cons_of_mem _ hm)) (fun t => (key t).2)
        refine ⟨?_, this.2⟩
        show series (realOps g) times ls (layerOn (realOps g) times (fun t => (shifts ps').flatMap fun k => v prev (t + k))
          (layerOfComp num c)) = _
        rw [layerOn_comp, show (fun t => pointwise (realOps g) times ((shifts ps').flatMap fun k => v prev (t + k))
          (layerOfComp num c)) = v n.name from funext fun t => by rw [← hval t]; exact (key t).1]
        exact this.1

/-! ## Sizes -/

theorem pointwise_of {R : Type} {num : ANum R} {c : Comp R} {d e : Nat} (h1 : 1 ≤ d) (he : 1 ≤ e) (h : c.Takes d e) :
    Pointwise (layerOfComp num c) d e := by
  cases c with
  | affine W b =>
    obtain ⟨hW, hb, hr⟩ := h
    have hW0 : W ≠ [] := by intro h; subst h; simp at hW; omega
    have hn : numCols W = d := by
      cases W with
      | nil => exact absurd rfl hW0
      | cons r W => exact hr r (List.mem_cons_self ..)
    have hlen : (transposed W).length = d := by
      unfold transposed
      rw [List.length_map, List.length_range, hn]
    refine .linear ?_ hlen ?_ hb
    · intro h0
      change transposed W = [] at h0
      rw [h0] at hlen
      simp at hlen
      omega
    · intro y hy
      change y ∈ transposed W at hy
      unfold transposed at hy
      obtain ⟨j, hj, rfl⟩ := List.mem_map.mp hy
      rw [List.mem_range, hn] at hj
      rw [← hW]
      clear hy hlen hn hW0 hW hb
      induction W with
      | nil => rfl
      | cons r W ih =>
        rw [List.filterMap_cons, List.getElem?_eq_getElem (by rw [hr r (List.mem_cons_self ..)]; exact hj)]
        simp only [List.length_cons]
        rw [ih fun r hr' => hr r (List.mem_cons_of_mem _ hr')]
  | relu => cases h; exact .relu
  | batchNorm mean var eps rms =>
    obtain ⟨hm, hv, rfl⟩ := h
    refine .batchNorm (by rw [List.length_map]; exact hv) ?_
    rw [List.length_zipWith, List.length_map, List.length_map]
    omega
  | logSoftmax => cases h; exact .logSoftmax

theorem foldl_min_le : ∀ (l : List Int) (a : Int), l.foldl min a ≤ a ∧ (∀ c ∈ l, l.foldl min a ≤ c) ∧
    (l.foldl min a = a ∨ l.foldl min a ∈ l)
  | [], a => ⟨Int.le_refl _, (fun c h => absurd h List.not_mem_nil), Or.inl rfl⟩
  | x :: l, a => by
    obtain ⟨h1, h2, h3⟩ := foldl_min_le l (min a x)
    rw [List.foldl_cons]
    refine ⟨by omega, ?_, ?_⟩
    · intro c hc
      rcases List.mem_cons.mp hc with rfl | hc
      · omega
      · exact h2 c hc
    · rcases h3 with h3 | h3
      · rcases Int.le_total a x with h | h
        · exact .inl (by rw [h3]; omega)
        · exact .inr (by rw [h3, Int.min_eq_right h]; exact List.mem_cons_self ..)
      · exact .inr (List.mem_cons_of_mem _ h3)

theorem foldl_max_ge : ∀ (l : List Int) (a : Int), a ≤ l.foldl max a ∧ (∀ c ∈ l, c ≤ l.foldl max a) ∧
    (l.foldl max a = a ∨ l.foldl max a ∈ l)
  | [], a => ⟨Int.le_refl _, (fun c h => absurd h List.not_mem_nil), Or.inl rfl⟩
  | x :: l, a => by
    obtain ⟨h1, h2, h3⟩ := foldl_max_ge l (max a x)
    rw [List.foldl_cons]
    refine ⟨by omega, ?_, ?_⟩
    · intro c hc
      rcases List.mem_cons.mp hc with rfl | hc
      · omega
      · exact h2 c hc
    · rcases h3 with h3 | h3
      · rcases Int.le_total a x with h | h
        · exact .inr (by rw [h3, Int.max_eq_right h]; exact List.mem_cons_self ..)
        · exact .inl (by rw [h3]; omega)
      · exact .inr (List.mem_cons_of_mem _ h3)

/-- The layers of a chain are built as `C28` and `C30` ask. -/
theorem built_chain {R : Type} {num : ANum R} {cs : List (Txt × Comp R)} (hd : (cs.map Prod.fst).Nodup)
    {ns : List Node} {ls : List (Layer R)} {l r : Int} (hl : Layers num cs ns ls l r) :
    ∀ {prev : Txt} {d e : Nat}, Chain prev ns → Fit cs d ns e →
    ∃ w L R, l = Int.ofNat L ∧ r = Int.ofNat R ∧ ∀ w', w ≤ w' → Built ls d e L R w' := by
  induction hl with
  | nil =>
    intro prev d e _ hf
    cases hf with
    | nil h => exact ⟨d, 0, 0, rfl, rfl, fun w' hw => .nil h hw⟩
  | @plain n p c ns ls l r hi hc _ ih =>
    intro prev d e hch hf
    cases hf with
    | @cons _ e' _ _ _ c' h1 hc' ht hf =>
      obtain rfl := comp_unique hd hc hc'
      cases hch with
      | context hi' => rw [hi] at hi'; cases hi'
      | plain hi' hch =>
        obtain ⟨w, L, R, hL, hR, hb⟩ := ih hch hf
        rw [hi'] at ht
        exact ⟨max w d, L, R, hL, hR, fun w' hw => .row h1 (by omega) (pointwise_of h1 (fit_pos hf) ht) (hb w' (by omega))⟩
  | @context n ps c ns ls l r hi hc _ ih =>
    intro prev d e hch hf
    have hw := fun h1 => width_pos (d := d) hch h1
    cases hf with
    | @cons _ e' _ _ _ c' h1 hc' ht hf =>
      obtain rfl := comp_unique hd hc hc'
      cases hch with
      | plain hi' => rw [hi] at hi'; cases hi'
      | @context _ _ _ ps' hi' h0 hps hch =>
        have hps' : ps' = ps := by rw [hi] at hi'; cases hi'; rfl
        subst hps'
        obtain ⟨w, L, R, hL, hR, hb⟩ := ih hch hf
        have a := foldl_min_le (shifts ps') 0
        have b := foldl_max_ge (shifts ps') 0
        obtain ⟨bl, hbl⟩ : ∃ k : Nat, back ps' = Int.ofNat k := ⟨(back ps').toNat, by
          have : 0 ≤ back ps' := by unfold back; omega
          exact (Int.toNat_of_nonneg this).symm⟩
        obtain ⟨fr, hfr⟩ : ∃ k : Nat, forth ps' = Int.ofNat k := ⟨(forth ps').toNat, by
          have : 0 ≤ forth ps' := by unfold forth; omega
          exact (Int.toNat_of_nonneg this).symm⟩
        have hlen : (shifts ps').length = ps'.length := by unfold shifts; rw [List.length_map]
        have hwd : n.input.width d = ps'.length * d := by rw [hi]; rfl
        rw [hwd] at ht hw
        rw [hbl, hfr]
        unfold back at hbl
        unfold forth at hfr
        have hbl' : (shifts ps').foldl min 0 = -(bl : Int) := by
          have : -(shifts ps').foldl min 0 = (bl : Int) := hbl
          omega
        have hfr' : (shifts ps').foldl max 0 = (fr : Int) := hfr
        refine ⟨max (max w d) (ps'.length * d), bl + L, fr + R, by rw [hL]; rfl, by rw [hR]; rfl, fun w' hw' => ?_⟩
        refine Built.context h1 (by omega) ?_ ?_ ?_ ?_ ?_ (Built.row (e := e') ?_ ?_ ?_ (hb w' (by omega)))
        · intro h
          apply h0
          rw [← List.length_eq_zero_iff, ← hlen, h]
          rfl
        · intro k hk
          have := a.2.1 k hk
          omega
        · intro k hk
          have := b.2.1 k hk
          omega
        · rcases a.2.2 with h | h
          · left; omega
          · right; rw [← hbl']; exact h
        · rcases b.2.2 with h | h
          · left; omega
          · right; rw [← hfr']; exact h
        · rw [hlen]; exact hw h1
        · rw [hlen]; omega
        · rw [hlen]
          exact pointwise_of (hw h1) (fit_pos hf) ht

/-! ## Solutions -/

/-- A chain can be evaluated. -/
theorem solution_chain {cs : List (Txt × Comp ℝ)} {ns : List Node} : ∀ {prev : Txt}, Chain prev ns →
    (prev :: ns.map Node.name).Nodup → (∀ n ∈ ns, ∃ c, (n.comp, c) ∈ cs) → ∀ y : Int → List ℝ,
    ∃ v : Txt → Int → List ℝ, v prev = y ∧
      ∀ n ∈ ns, ∃ c, (n.comp, c) ∈ cs ∧ ∀ t, v n.name t = c.apply (n.input.value v t) := by
  intro prev hch
  have hnames : ∀ {prev : Txt} {ns : List Node}, Chain prev ns → ∀ n ∈ ns, ∀ (v v' : Txt → Int → List ℝ),
      (∀ k ∈ prev :: ns.map Node.name, v k = v' k) → ∀ t, n.input.value v t = n.input.value v' t := by
    intro prev ns hch
    induction hch with
    | nil => intro n hn; cases hn
    | @plain prev m ns hi _ ih =>
      intro n hn v v' h t
      rcases List.mem_cons.mp hn with rfl | hn
      · rw [hi]
        show v prev (t + 0) = v' prev (t + 0)
        rw [h prev (List.mem_cons_self ..)]
      · exact ih n hn v v' (fun k hk => h k (List.mem_cons_of_mem _ (by rw [List.map_cons]; exact hk))) t
    | @context prev m ns ps hi h0 hps _ ih =>
      intro n hn v v' h t
      rcases List.mem_cons.mp hn with rfl | hn
      · rw [hi]
        show (ps.flatMap fun p => p.value v t) = ps.flatMap fun p => p.value v' t
        clear hi h0
        induction ps with
        | nil => rfl
        | cons p ps ih' =>
          rw [List.flatMap_cons, List.flatMap_cons, ih' fun q hq => hps q (List.mem_cons_of_mem _ hq)]
          congr 1
          unfold Part.value
          rw [hps p (List.mem_cons_self ..), h prev (List.mem_cons_self ..)]
      · exact ih n hn v v' (fun k hk => h k (List.mem_cons_of_mem _ (by rw [List.map_cons]; exact hk))) t
  induction ns generalizing prev with
  | nil => intro _ _ y; exact ⟨fun _ => y, rfl, fun n hn => by cases hn⟩
  | cons n ns ih =>
    intro hnd hc y
    obtain ⟨c, hcc⟩ := hc n (List.mem_cons_self ..)
    have hch' : Chain n.name ns := by cases hch <;> assumption
    rw [List.map_cons, List.nodup_cons] at hnd
    obtain ⟨v, hv, hv'⟩ := ih hch' hnd.2 (fun m hm => hc m (List.mem_cons_of_mem _ hm))
      (fun t => c.apply (n.input.value (fun _ => y) t))
    refine ⟨fun k => if k = prev then y else v k, if_pos rfl, ?_⟩
    intro m hm
    have hne : m.name ≠ prev := by
      intro e
      apply hnd.1
      rw [← e]
      rcases List.mem_cons.mp hm with rfl | hm
      · exact List.mem_cons_self ..
      · exact List.mem_cons_of_mem _ (List.mem_map.mpr ⟨m, hm, rfl⟩)
    rcases List.mem_cons.mp hm with rfl | hm
    · refine ⟨c, hcc, fun t => ?_⟩
      simp only [if_neg hne, hv]
      congr 1
      cases hch with
      | plain hi _ =>
        rw [hi]
        show y (t + 0) = (if prev = prev then y else v prev) (t + 0)
        rw [if_pos rfl]
      | @context _ _ _ ps hi h0 hps _ =>
        rw [hi]
        show (ps.flatMap fun p => p.value (fun _ => y) t) = ps.flatMap fun p => p.value (fun k => if k = prev then y else v k) t
        clear hi h0
        induction ps with
        | nil => rfl
        | cons p ps ih' =>
          rw [List.flatMap_cons, List.flatMap_cons, ih' fun q hq => hps q (List.mem_cons_of_mem _ hq)]
          congr 1
          unfold Part.value
          rw [hps p (List.mem_cons_self ..)]
          show y _ = (if prev = prev then y else v prev) _
          rw [if_pos rfl]
    · obtain ⟨c', hc', hv''⟩ := hv' m hm
      refine ⟨c', hc', fun t => ?_⟩
      simp only [if_neg hne]
      rw [hv'' t]
      congr 1
      refine hnames hch' m hm _ _ ?_ t
      intro k hk
      rw [if_neg]
      intro e
      subst e
      exact hnd.1 hk

end Verif.Tool
