import Verif.NnetSpec

/-!
# Facts about the layers
-/

namespace Verif.Nnet

open Spec

variable {F : Type}

theorem numCols_of {m : List (List F)} {d : Nat} (h0 : m ≠ []) (h : ∀ x ∈ m, x.length = d) : numCols m = d := by
  cases m with
  | nil => exact absurd rfl h0
  | cons x m => exact h x (by simp)

theorem resize_ok {old : List (List F)} {rows cols : Int} (h1 : 0 < rows) (h2 : 0 < cols)
    (h : rows * cols ≤ 2147483647) : resize old rows cols = .ok () := by
  unfold resize
  split
  · rfl
  · exact matInit_ok h1 h2 h

theorem resize_nat {old : List (List F)} {rows cols n w : Nat} (h1 : 0 < rows) (h2 : 0 < cols) (hc : cols ≤ w)
    (hr : rows ≤ n) (h : n * w ≤ 2147483647) : resize old (rows : Int) (cols : Int) = .ok () := by
  apply resize_ok (by omega) (by omega)
  have := Nat.mul_le_mul hr hc
  have e : ((rows * cols : Nat) : Int) = (rows : Int) * cols := Int.natCast_mul ..
  omega

theorem mapM_ok {α β : Type} (f : α → Exec β) (g : α → β) :
    ∀ l : List α, (∀ x ∈ l, f x = .ok (g x)) → l.mapM f = .ok (l.map g)
  | [], _ => rfl
  | x :: l, h => by
    rw [List.mapM_cons, h x (by simp), ok_bind, mapM_ok f g l (fun y hy => h y (by simp [hy]))]
    rfl

/-- Row `i` of the matrix is the vector at time `off + i`. -/
def Shows (m : List (List F)) (x : Int → List F) (off : Int) (d : Nat) : Prop :=
  m ≠ [] ∧ (∀ v ∈ m, v.length = d) ∧ ∀ i : Nat, i < m.length → m[i]? = some (x (off + i))

theorem Shows.map {m : List (List F)} {x : Int → List F} {off : Int} {d e : Nat} (h : Shows m x off d)
    (g : List F → List F) (hg : ∀ v : List F, v.length = d → (g v).length = e) :
    Shows (m.map g) (fun t => g (x t)) off e := by
  obtain ⟨h0, h1, h2⟩ := h
  refine ⟨by simpa using h0, fun v hv => ?_, fun i hi => ?_⟩
  · obtain ⟨u, hu, rfl⟩ := List.mem_map.mp hv
    exact hg u (h1 u hu)
  · rw [List.length_map] at hi
    rw [List.getElem?_map, h2 i hi]
    rfl

theorem foldl_map_add (o : Ops F) (f : F → F) : ∀ (x : List F) (s : F),
    x.foldl (fun s v => o.add s (f v)) s = (x.map f).foldl o.add s
  | [], _ => rfl
  | _ :: x, s => foldl_map_add o f x _

theorem zipWith_self (f : F → F → F) : ∀ x : List F, List.zipWith f x x = x.map fun v => f v v
  | [] => rfl
  | _ :: x => by rw [List.zipWith_cons_cons, zipWith_self f x]; rfl

/-- A layer of the simple kind acts on every row. -/
theorem pointwise_ok {o : Ops F} {vm : List F → List (List F) → List F} (hvm : RowWise o vm)
    {l : Layer F} {d e : Nat} (hl : Pointwise l d e) {m out : List (List F)} {n w : Nat} (h0 : m ≠ [])
    (hm : ∀ v ∈ m, v.length = d) (hn : m.length ≤ n) (hd1 : 1 ≤ d) (hdw : d ≤ w) (he1 : 1 ≤ e) (hew : e ≤ w)
    (hnw : n * w ≤ 2147483647) :
    l.propagate o m out = .ok (m.map fun x => pointwise o vm x l) := by
  have hpos : 0 < m.length := List.length_pos_iff.mpr h0
  have hc : numCols m = d := numCols_of h0 hm
  cases hl with
  | linear g0 g1 g2 g3 =>
    rename_i W b
    have hW : numCols W = e := numCols_of g0 g2
    show (do
      cassert (decide (b.length ≠ 0))
      resize out m.length (numCols W)
      cassert (decide (numCols m = W.length))
      (o.gemm m W).mapM fun x => addVec o x b) = _
    rw [decide_eq_true (by omega), cassert_true, ok_bind, hW, resize_nat hpos (by omega) hew hn hnw, ok_bind,
      decide_eq_true (by omega), cassert_true, ok_bind, hvm.gemm m W (fun x hx => by rw [hm x hx, g1])]
    rw [mapM_ok _ (fun y => List.zipWith o.add y b), List.map_map]
    · rfl
    · intro y hy
      obtain ⟨x, hx, rfl⟩ := List.mem_map.mp hy
      unfold addVec
      rw [hvm.size x W e (by rw [hm x hx, g1]) g0 g2, decide_eq_true g3.symm]
      rfl
  | relu =>
    show (do
      resize out m.length (numCols m)
      .ok (m.map (applyRelu o))) = _
    rw [hc, resize_nat hpos hd1 hdw hn hnw]
    rfl
  | normalize =>
    show (do
      resize out m.length (numCols m)
      .ok (m.map (applyNormalize o (o.ofInt (numCols m))))) = _
    rw [hc, resize_nat hpos hd1 hdw hn hnw, ok_bind]
    congr 1
    apply List.map_congr_left
    intro x hx
    unfold applyNormalize pointwise
    rw [zipWith_self, hm x hx]
  | softmax =>
    show (do
      resize out m.length (numCols m)
      .ok (m.map (applySoftMax o))) = _
    rw [hc, resize_nat hpos hd1 hdw hn hnw, ok_bind]
    congr 1
    apply List.map_congr_left
    intro x hx
    unfold applySoftMax pointwise
    simp only [List.map_map]
    rfl
  | logSoftmax =>
    show (do
      resize out m.length (numCols m)
      .ok (m.map (applyLogSoftMax o))) = _
    rw [hc, resize_nat hpos hd1 hdw hn hnw, ok_bind]
    congr 1
    apply List.map_congr_left
    intro x hx
    unfold applyLogSoftMax pointwise
    simp only [foldl_map_add]
  | batchNorm g1 g2 =>
    rename_i s t
    show (do
      cassert (decide (0 < s.length))
      resize out m.length (numCols m)
      m.mapM fun x => do
        let x ← mulElements o x s
        addVec o x t) = _
    rw [decide_eq_true (by omega), cassert_true, ok_bind, hc, resize_nat hpos hd1 hdw hn hnw, ok_bind]
    apply mapM_ok
    intro x hx
    unfold mulElements addVec
    rw [hm x hx, decide_eq_true g1, cassert_true, ok_bind, ok_bind, List.length_zipWith, hm x hx,
      decide_eq_true (by omega)]
    rfl

theorem pointwise_size {o : Ops F} {vm : List F → List (List F) → List F} (hvm : RowWise o vm)
    {l : Layer F} {d e : Nat} (hl : Pointwise l d e) {x : List F} (hx : x.length = d) :
    (pointwise o vm x l).length = e := by
  cases hl with
  | linear g0 g1 g2 g3 =>
    unfold pointwise
    rw [List.length_zipWith, hvm.size x _ e (by omega) g0 g2]
    omega
  | relu => unfold pointwise; rw [List.length_map, hx]
  | normalize => unfold pointwise; rw [List.length_map, hx]
  | softmax => unfold pointwise; rw [List.length_map, hx]
  | logSoftmax => unfold pointwise; rw [List.length_map, hx]
  | batchNorm g1 g2 =>
    unfold pointwise
    rw [List.length_zipWith, List.length_zipWith]
    omega

/-! ## Splicing and narrowing -/

/-- Clamp a row number to those that exist. -/
def clamp (n : Nat) (i : Int) : Nat := if i < 0 then 0 else if i > (n : Int) - 1 then n - 1 else i.toNat

theorem clamp_lt {n : Nat} (h : 0 < n) (i : Int) : clamp n i < n := by
  unfold clamp
  split
  · exact h
  · split <;> omega

/-- The rows of a spliced matrix. -/
def spliced (m : List (List F)) (idx : List Int) : List (List F) :=
  (List.range m.length).map fun i : Nat => idx.flatMap fun c => (m[clamp m.length ((i : Int) + c)]?).getD []

theorem spliced_length (m : List (List F)) (idx : List Int) : (spliced m idx).length = m.length := by
  unfold spliced; rw [List.length_map, List.length_range]

theorem flatMap_const_length {m : List (List F)} {d : Nat} (hpos : 0 < m.length) (h1 : ∀ v ∈ m, v.length = d)
    (i : Nat) : ∀ idx : List Int,
      (idx.flatMap fun c => (m[clamp m.length ((i : Int) + c)]?).getD []).length = idx.length * d
  | [] => by simp
  | c :: cs => by
    have hcl := clamp_lt hpos ((i : Int) + c)
    rw [List.flatMap_cons, List.length_append, flatMap_const_length hpos h1 i cs, List.getElem?_eq_getElem hcl,
      Option.getD_some, h1 _ (List.getElem_mem hcl), List.length_cons, Nat.add_mul, Nat.one_mul, Nat.add_comm]

theorem spliced_size {m : List (List F)} {d : Nat} (hpos : 0 < m.length) (h1 : ∀ v ∈ m, v.length = d)
    (idx : List Int) : ∀ v ∈ spliced m idx, v.length = idx.length * d := by
  intro v hv
  obtain ⟨i, _, rfl⟩ := List.mem_map.mp hv
  exact flatMap_const_length hpos h1 i idx

theorem spliceRow_ok {m : List (List F)} {d : Nat} (h0 : m ≠ []) (hm : ∀ v ∈ m, v.length = d)
    (outCols : Nat) (hout : (outCols : Int) ≤ 2147483647) (i : Nat) :
    ∀ (cs : List Int) (offset : Nat) (acc : List F), (∀ c ∈ cs, InI32 ((i : Int) + c)) →
      offset + cs.length * d = outCols →
      spliceRow m outCols i cs offset acc =
        .ok (acc ++ cs.flatMap fun c => (m[clamp m.length ((i : Int) + c)]?).getD [])
  | [], offset, acc, _, ho => by
    unfold spliceRow
    rw [decide_eq_true (by simp only [List.length_nil, Nat.zero_mul] at ho; omega), cassert_true, ok_bind]
    simp
  | c :: cs, offset, acc, hc, ho => by
    have hpos : 0 < m.length := List.length_pos_iff.mpr h0
    have hmul : (cs.length + 1) * d = cs.length * d + d := by rw [Nat.add_mul, Nat.one_mul]
    rw [List.length_cons, hmul] at ho
    have hcl := clamp_lt hpos ((i : Int) + c)
    have hcnt : (if (if (i : Int) + c < 0 then 0 else (i : Int) + c) > (m.length : Int) - 1 then
        (m.length : Int) - 1 else (if (i : Int) + c < 0 then 0 else (i : Int) + c)) =
        ((clamp m.length ((i : Int) + c) : Nat) : Int) := by
      unfold clamp
      split <;> split <;> try split
      all_goals omega
    unfold spliceRow
    rw [i32_of (hc c (by simp)), ok_bind]
    simp only
    rw [hcnt, numCols_of h0 hm, i32_of (by unfold InI32; omega), ok_bind, decide_eq_true (by omega), cassert_true,
      ok_bind, aget_nat (List.getElem?_eq_getElem hcl), ok_bind, show (offset : Int) + (d : Int) = ((offset + d : Nat) : Int) by omega,
      spliceRow_ok h0 hm outCols hout i cs (offset + d) _ (fun c' hc' => hc c' (by simp [hc'])) (by omega),
      List.flatMap_cons, List.append_assoc, List.getElem?_eq_getElem hcl]
    rfl

theorem splice_ok {m out : List (List F)} {d n w : Nat} {idx : List Int} (h0 : m ≠ [])
    (hm : ∀ v ∈ m, v.length = d) (hi : idx ≠ []) (hd : 1 ≤ d) (hw : idx.length * d ≤ w) (hn : m.length ≤ n)
    (hnw : n * w ≤ 2147483647) (hidx : ∀ i : Nat, i < m.length → ∀ c ∈ idx, InI32 ((i : Int) + c)) :
    spliceMat idx m out = .ok (spliced m idx) := by
  have hpos : 0 < m.length := List.length_pos_iff.mpr h0
  have hil : 0 < idx.length := List.length_pos_iff.mpr hi
  have hmul : 0 < idx.length * d := Nat.mul_pos hil hd
  have hle : idx.length * d ≤ 2147483647 :=
    Nat.le_trans (Nat.le_trans hw (Nat.le_mul_of_pos_left w (by omega : 0 < n))) hnw
  have hwr : wrap32 ((idx.length : Int) * d) = ((idx.length * d : Nat) : Int) := by
    rw [← Int.natCast_mul]
    exact wrap32_of ⟨by omega, by omega⟩
  unfold spliceMat
  rw [decide_eq_true (by omega), cassert_true, ok_bind, numCols_of h0 hm, if_neg (by omega)]
  simp only [hwr]
  rw [resize_nat hpos hmul hw hn hnw, ok_bind]
  apply mapM_ok
  intro i hi'
  have hi' : i < m.length := by simpa using hi'
  have := spliceRow_ok h0 hm (idx.length * d) (by omega) i idx 0 [] (hidx i hi') (by omega)
  rw [List.nil_append] at this
  exact this

theorem narrow_ok {m out : List (List F)} {d n w l r : Nat} (hm : ∀ v ∈ m, v.length = d) (hd : 1 ≤ d)
    (hw : d ≤ w) (hn : m.length ≤ n) (hnw : n * w ≤ 2147483647) (hlr : l + r < m.length) :
    narrowMat (l : Int) (r : Int) m out = .ok ((m.drop l).take (m.length - l - r)) := by
  have h0 : m ≠ [] := by intro h; subst h; simp at hlr
  have hc : numCols m = d := numCols_of h0 hm
  have hN : m.length ≤ 2147483647 :=
    Nat.le_trans hn (Nat.le_trans (Nat.le_mul_of_pos_right n (by omega)) hnw)
  unfold narrowMat
  rw [decide_eq_true (by omega), cassert_true, ok_bind, i32_of (by unfold InI32; omega), ok_bind, if_neg (by omega),
    i32_of (by unfold InI32; omega), ok_bind, i32_of (by unfold InI32; omega), ok_bind,
    show ((m.length : Int) - l - r) = ((m.length - l - r : Nat) : Int) by omega, hc,
    resize_nat (by omega) hd hw (by omega : m.length - l - r ≤ n) hnw, ok_bind]
  unfold rowsOf
  rw [hc, if_neg (by omega), decide_eq_true ⟨by omega, by omega, by omega⟩, cassert_true, ok_bind,
    if_pos ⟨by omega, by omega⟩]
  rfl

/-- Splicing and then narrowing by the extent of the indices leaves the rows that no clamping touched. -/
theorem context_ok {m : List (List F)} {x : Int → List F} {off : Int} {d : Nat} {idx : List Int} {l r : Nat}
    (h : Shows m x off d) (hl : ∀ c ∈ idx, -(l : Int) ≤ c) (hr : ∀ c ∈ idx, c ≤ (r : Int))
    (hlr : l + r < m.length) :
    Shows (((spliced m idx).drop l).take (m.length - l - r))
      (fun t => idx.flatMap fun c => x (t + c)) (off + l) (idx.length * d) := by
  obtain ⟨h0, h1, h2⟩ := h
  have hpos : 0 < m.length := List.length_pos_iff.mpr h0
  have hlen : (((spliced m idx).drop l).take (m.length - l - r)).length =
      m.length - l - r := by
    rw [List.length_take, List.length_drop, spliced_length]; omega
  refine ⟨?_, ?_, ?_⟩
  · intro hh
    rw [hh] at hlen
    simp only [List.length_nil] at hlen
    omega
  · intro v hv
    have hv := List.mem_of_mem_drop (List.mem_of_mem_take hv)
    exact spliced_size hpos h1 idx v hv
  · intro i hi
    rw [hlen] at hi
    rw [List.getElem?_take_of_lt hi, List.getElem?_drop]
    unfold spliced
    rw [List.getElem?_map, List.getElem?_range (by omega)]
    simp only [Option.map_some, Option.some.injEq]
    have key : ∀ c ∈ idx, (m[clamp m.length (((l + i : Nat) : Int) + c)]?).getD [] = x (off + l + i + c) := by
      intro c hc
      have h3 := hl c hc
      have h4 := hr c hc
      have : clamp m.length (((l + i : Nat) : Int) + c) = (((l + i : Nat) : Int) + c).toNat := by
        unfold clamp
        rw [if_neg (by omega), if_neg (by omega)]
      rw [this, h2 _ (by omega)]
      simp only [Option.getD_some]
      congr 1
      omega
    clear hl hr hlen
    induction idx with
    | nil => rfl
    | cons c cs ih =>
      rw [List.flatMap_cons, List.flatMap_cons, key c (by simp)]
      congr 1
      exact ih (fun c' hc' => key c' (by simp [hc']))

/-! ## Whole networks -/

theorem propagateLoop_ok {o : Ops F} {vm : List F → List (List F) → List F} (hvm : RowWise o vm)
    {n : Nat} {ls : List (Layer F)} {d e L R w : Nat} (hb : Built ls d e L R w) (hnw : n * w ≤ 2147483647)
    (hn30 : n ≤ 1073741823) :
    ∀ {m out : List (List F)} {x : Int → List F} {off : Int}, Shows m x off d → m.length ≤ n → L + R < m.length →
      ∃ y, propagateLoop o ls m out = .ok y ∧ y.length = m.length - L - R ∧
        Shows y (series o vm ls x) (off + L) e := by
  induction hb with
  | nil h1 h2 =>
    intro m out x off hs hn hlr
    exact ⟨m, rfl, by omega, by simpa [series] using hs⟩
  | row h1 h2 h hs ih =>
    rename_i l ls d e f L R w
    intro m out x off hsh hn hlr
    have he : 1 ≤ e ∧ e ≤ w := by cases hs <;> exact ⟨by assumption, by assumption⟩
    have hp := pointwise_ok hvm h (out := out) hsh.1 hsh.2.1 hn h1 h2 he.1 he.2 hnw
    obtain ⟨y, g1, g2, g3⟩ := ih hnw (out := m)
      (hsh.map (fun v => pointwise o vm v l) (fun v hv => pointwise_size hvm h hv))
      (by rw [List.length_map]; exact hn) (by rw [List.length_map]; exact hlr)
    refine ⟨y, ?_, by rw [g2, List.length_map], ?_⟩
    · unfold propagateLoop
      rw [hp, ok_bind, g1]
    · have : layerOn o vm x l = fun t => pointwise o vm (x t) l := by cases h <;> rfl
      unfold series
      rw [this]
      exact g3
  | context h1 h2 h0 hl hr hl' hr' hs ih =>
    rename_i idx l r ls d f L R w
    intro m out x off hsh hn hlr
    have he : 1 ≤ idx.length * d ∧ idx.length * d ≤ w := by cases hs <;> exact ⟨by assumption, by assumption⟩
    have hctx := context_ok hsh hl hr (by omega)
    have hsp := splice_ok (out := out) hsh.1 hsh.2.1 h0 h1 he.2 hn hnw (by
      intro i hi c hc
      have := hl c hc
      have := hr c hc
      unfold InI32
      omega)
    have hsl := spliced_length m idx
    have hna := narrow_ok (l := l) (r := r) (out := m) (m := spliced m idx) (d := idx.length * d) (n := n) (w := w)
      (spliced_size (List.length_pos_iff.mpr hsh.1) hsh.2.1 idx) he.1 he.2 (by rw [hsl]; exact hn) hnw (by rw [hsl]; omega)
    rw [hsl] at hna
    obtain ⟨y, g1, g2, g3⟩ := ih hnw (out := spliced m idx) hctx
      (by rw [List.length_take, List.length_drop, hsl]; omega)
      (by rw [List.length_take, List.length_drop, hsl]; omega)
    refine ⟨y, ?_, ?_, ?_⟩
    · unfold propagateLoop
      rw [show (Layer.splice idx).propagate o m out = spliceMat idx m out from rfl, hsp, ok_bind]
      unfold propagateLoop
      rw [show (Layer.narrow l r).propagate o (spliced m idx) m = narrowMat l r _ m from rfl, hna,
        ok_bind, g1]
    · rw [g2, List.length_take, List.length_drop, hsl]; omega
    · unfold series series
      rw [show off + ((l + L : Nat) : Int) = off + l + L by omega]
      exact g3

/-- A value of the network depends on the vectors of its context only. -/
theorem series_congr {o : Ops F} {vm : List F → List (List F) → List F} {ls : List (Layer F)} {d e L R w : Nat}
    (hb : Built ls d e L R w) : ∀ {x y : Int → List F} {t : Int},
      (∀ s : Int, t - L ≤ s → s ≤ t + R → x s = y s) → series o vm ls x t = series o vm ls y t := by
  induction hb with
  | nil h1 h2 =>
    intro x y t h
    exact h t (by omega) (by omega)
  | row h1 h2 h hs ih =>
    rename_i l ls d e f L R w
    intro x y t hxy
    unfold series
    apply ih
    intro s g1 g2
    have : ∀ z : Int → List F, layerOn o vm z l = fun t => pointwise o vm (z t) l := by cases h <;> exact fun _ => rfl
    rw [this, this]
    simp only
    rw [hxy s g1 g2]
  | context h1 h2 h0 hl hr hl' hr' hs ih =>
    rename_i idx l r ls d f L R w
    intro x y t hxy
    unfold series series
    apply ih
    intro s g1 g2
    show idx.flatMap (fun c => x (s + c)) = idx.flatMap (fun c => y (s + c))
    rw [List.flatMap_def, List.flatMap_def]
    congr 1
    apply List.map_congr_left
    intro c hc
    have := hl c hc
    have := hr c hc
    exact hxy _ (by omega) (by omega)

theorem Built.in_size {ls : List (Layer F)} {d e L R w : Nat} (hb : Built ls d e L R w) : 1 ≤ d ∧ d ≤ w := by
  cases hb <;> exact ⟨by assumption, by assumption⟩

theorem Built.out_size {ls : List (Layer F)} {d e L R w : Nat} (hb : Built ls d e L R w) : 1 ≤ e ∧ e ≤ w := by
  induction hb with
  | nil h1 h2 => exact ⟨h1, h2⟩
  | row _ _ _ _ ih => exact ih
  | context _ _ _ _ _ _ _ _ ih => exact ih

theorem propagate_ok {o : Ops F} {vm : List F → List (List F) → List F} (hvm : RowWise o vm)
    {ls : List (Layer F)} {d e L R w : Nat} (hb : Built ls d e L R w)
    {m out : List (List F)} (hnw : m.length * w ≤ 2147483647) (hn30 : m.length ≤ 1073741823)
    {x : Int → List F} {off : Int} (hs : Shows m x off d) (hlr : L + R < m.length) :
      ∃ y, propagate o ls m out = .ok y ∧ y.length = m.length - L - R ∧
        Shows y (series o vm ls x) (off + L) e := by
  obtain ⟨y, h1, h2, h3⟩ := propagateLoop_ok hvm hb hnw hn30 (out := []) hs (Nat.le_refl _) hlr
  have hd : 1 ≤ d ∧ d ≤ w := by cases hb <;> exact ⟨by assumption, by assumption⟩
  have he := Built.out_size hb
  refine ⟨y, ?_, h2, h3⟩
  unfold propagate
  rw [numCols_of hs.1 hs.2.1, resize_nat (by omega) hd.1 hd.2 (Nat.le_refl _) hnw, ok_bind, h1, ok_bind,
    numCols_of h3.1 h3.2.1, resize_nat (by omega) he.1 he.2 (by omega : y.length ≤ m.length) hnw]
  rfl

end Verif.Nnet
