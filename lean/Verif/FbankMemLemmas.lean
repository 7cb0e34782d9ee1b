import Verif.FbankMemSpec
import Verif.FbankLemmas
import Verif.AmMemRun

/-!
# Vectors in memory that may not have been written yet
-/

namespace Verif.FbankMem

open Mat (Heap Addr View load poke loop peek)
open VecMem (Vec elem setElem get put subVec copyVec resizePlain resizeCopy destroy)
open NetMem
open NetMem.Spec (Line Shows VShows Live InOrder block)
open AmMem.Spec (Effect Sub)
open AmMem
open Fbank (Ops)
open Spec

variable {F : Type}

/-- From `a` on there are these elements, written or not. -/
def Cells (h : Heap F) (a : Addr) (x : List (Option F)) : Prop :=
  ∀ (i : Nat) (c : Option F), x[i]? = some c → peek h ⟨a.block, a.off + i⟩ = some c

theorem cells_line {h : Heap F} {a : Addr} {x : List F} (hc : Cells h a (x.map some)) : Line h a x := by
  intro i y hy
  exact hc i _ (by rw [List.getElem?_map, hy]; rfl)

theorem line_cells {h : Heap F} {a : Addr} {x : List F} (hl : Line h a x) : Cells h a (x.map some) := by
  intro i c hc
  rw [List.getElem?_map] at hc
  cases hx : x[i]? with
  | none => rw [hx] at hc; cases hc
  | some y => rw [hx] at hc; cases hc; exact hl i y hx

theorem Cells.poke {h : Heap F} {a : Addr} {x : List (Option F)} (hl : Cells h a x) {i : Nat} (hi : i < x.length)
    (c : Option F) :
    ∃ h', Mat.poke h ⟨a.block, a.off + i⟩ c = .ok h' ∧ Cells h' a (x.set i c) ∧ Only h h' a x.length := by
  obtain ⟨h', e, e1, e2, _⟩ := Mat.poke_ok (hl i _ (List.getElem?_eq_getElem hi)) c
  refine ⟨h', e, ?_, ?_, poke_shape e⟩
  · intro j z hz
    by_cases hj : i = j
    · subst hj
      rw [List.getElem?_set_self hi] at hz
      cases hz
      exact e1
    · rw [List.getElem?_set_ne hj] at hz
      rw [e2 _ (fun hc => hj (by have := congrArg Addr.off hc; simp only at this; omega))]
      exact hl j z hz
  · intro b hb
    apply e2
    rintro rfl
    exact hb ⟨rfl, by simp only; omega, by simp only; omega⟩

/-- A loop that writes one element after the other. -/
theorem loop_cells {f : Int → Heap F → Exec (Heap F)} {h : Heap F} {a : Addr} {x y : List (Option F)} (hl : Cells h a x)
    (hlen : y.length = x.length) {k : Int} (hk : k = x.length)
    (step : ∀ (i : Nat) (h1 : Heap F) (v : Option F), y[i]? = some v → Cells h1 a (mix x y i) →
      Only h h1 a x.length → f i h1 = Mat.poke h1 ⟨a.block, a.off + i⟩ v) :
    ∃ h', loop k f h = .ok h' ∧ Cells h' a y ∧ Only h h' a x.length := by
  obtain ⟨h', e, p⟩ := loop_nat (f := f) (fun i h1 => Cells h1 a (mix x y i) ∧ Only h h1 a x.length) x.length hk h
    ⟨by rw [mix_zero]; exact hl, .refl _ _ _⟩ (by
      rintro i h1 hi ⟨l1, o1⟩
      have hv := List.getElem?_eq_getElem (show i < y.length by omega)
      have q := step i h1 _ hv l1 o1
      obtain ⟨h2, e2, l2, o2⟩ := l1.poke (i := i) (by rw [mix_length hlen]; exact hi) y[i]
      rw [mix_length hlen] at o2
      exact ⟨h2, by rw [q, e2], by rw [← mix_set hlen hv]; exact l2, o1.trans o2⟩)
  rw [mix_all hlen] at p
  exact ⟨h', e, p⟩

/-- `Turns` for elements that may not have been written before. -/
def Fills (f : Heap F → Exec (Heap F)) (h : Heap F) (a : Addr) (n : Nat) (y : List F) : Prop :=
  ∃ h', f h = .ok h' ∧ Line h' a y ∧ Only h h' a n

theorem only_cells {h h' : Heap F} {a : Addr} {n : Nat} (p : Only h h' a n) {b : Addr} {x : List (Option F)}
    (hb : b.block ≠ a.block) (hl : Cells h b x) : Cells h' b x := fun i y hy => by
  rw [p.block ⟨b.block, b.off + i⟩ hb]; exact hl i y hy

/-- Elements of the same block that are not touched. -/
theorem only_beside {h h' : Heap F} {a : Addr} {n : Nat} (p : Only h h' a n) {k : Int} {x : List (Option F)}
    (hk : k + x.length ≤ a.off ∨ a.off + n ≤ k) (hl : Cells h ⟨a.block, k⟩ x) : Cells h' ⟨a.block, k⟩ x := fun i y hy => by
  have hi := (List.getElem?_eq_some_iff.mp hy).1
  rw [p.other ⟨a.block, k + i⟩ (by rintro ⟨_, g1, g2⟩; simp only at g1 g2; omega)]
  exact hl i y hy

theorem only_mono {h h' : Heap F} {a : Addr} {n : Nat} (p : Only h h' a n) {b : Addr} {m : Nat} (hb : b.block = a.block)
    (h1 : b.off ≤ a.off) (h2 : a.off + n ≤ b.off + m) : Only h h' b m :=
  ⟨fun c hc => p.other c (fun g => hc ⟨by rw [hb]; exact g.1, by omega, by omega⟩), p.shape⟩

theorem cells_append {h : Heap F} {a : Addr} {x y : List (Option F)} (hx : Cells h a x)
    (hy : Cells h ⟨a.block, a.off + x.length⟩ y) : Cells h a (x ++ y) := by
  intro i c hc
  by_cases hi : i < x.length
  · rw [List.getElem?_append_left hi] at hc
    exact hx i c hc
  · rw [List.getElem?_append_right (by omega)] at hc
    have := hy _ _ hc
    rw [show a.off + (x.length : Int) + ((i - x.length : Nat) : Int) = a.off + i by omega] at this
    exact this

theorem cells_take {h : Heap F} {a : Addr} {x : List (Option F)} (hx : Cells h a x) (n : Nat) : Cells h a (x.take n) := by
  intro i c hc
  have hi := (List.getElem?_eq_some_iff.mp hc).1
  rw [List.length_take] at hi
  rw [List.getElem?_take_of_lt (by omega)] at hc
  exact hx i c hc

theorem cells_drop {h : Heap F} {a : Addr} {x : List (Option F)} (hx : Cells h a x) (n : Nat) :
    Cells h ⟨a.block, a.off + n⟩ (x.drop n) := by
  intro i c hc
  rw [List.getElem?_drop] at hc
  have := hx _ _ hc
  rw [show a.off + ((n + i : Nat) : Int) = a.off + n + i by omega] at this
  exact this

theorem line_part {h : Heap F} {a : Addr} {x : List F} (hx : Line h a x) (n k : Nat) :
    Line h ⟨a.block, a.off + n⟩ ((x.drop n).take k) := by
  apply cells_line
  rw [List.map_take, List.map_drop]
  exact cells_take (cells_drop (line_cells hx) n) k

/-! ## Copying -/

theorem memcpy_fills {h : Heap F} {a b : Addr} {x : List (Option F)} {y : List F} (hl : Cells h a x) (hb : Line h b y)
    (hne : b.block ≠ a.block) (hlen : y.length = x.length) {n : Int} (hn : n = x.length) :
    Fills (Mat.memcpy a b n) h a x.length y := by
  unfold Fills Mat.memcpy
  rw [if_neg (fun q => hne q.1.symm)]
  obtain ⟨h', e, c, o⟩ := loop_cells (f := fun i h =>
    match peek h ⟨b.block, b.off + i⟩ with
    | some c => poke h ⟨a.block, a.off + i⟩ c
    | none => .error .ub) (y := y.map some) hl (by rw [List.length_map, hlen]) hn (by
      intro i h1 v hv _ o1
      rw [List.getElem?_map] at hv
      cases hy : y[i]? with
      | none => rw [hy] at hv; cases hv
      | some w =>
        rw [hy] at hv
        cases hv
        rw [(o1.line hne hb) i w hy])
  exact ⟨h', e, cells_line c, o⟩

theorem copyVec_fills {h : Heap F} {a b : Addr} {x : List (Option F)} {y : List F} (hl : Cells h a x) (hb : Line h b y)
    (hne : b.block ≠ a.block) (hlen : y.length = x.length) {n k : Int} (hn : n = x.length) (hk : k = x.length) :
    Fills (copyVec ⟨some a, n⟩ ⟨some b, k⟩) h a x.length y := by
  obtain ⟨h', e, p⟩ := memcpy_fills hl hb hne hlen hn
  refine ⟨h', ?_, p⟩
  unfold copyVec
  simp only
  rw [if_neg (by omega)]
  unfold VecMem.copyFrom
  simp only
  rw [decide_eq_true (by omega), cassert_true, ok_bind, if_neg (fun q => hne (by cases q; rfl)), e]

/-! ## Views -/

theorem peek_length {h : Heap F} {a : Addr} {c : Option F} (hp : peek h a = some c) :
    ∃ blk, h[a.block]? = some (some blk) ∧ 0 ≤ a.off ∧ a.off < blk.length := by
  unfold peek at hp
  cases hb : h[a.block]? with
  | none => rw [hb] at hp; cases hp
  | some ob =>
    cases ob with
    | none => rw [hb] at hp; cases hp
    | some blk =>
      rw [hb] at hp
      simp only at hp
      by_cases g : 0 ≤ a.off
      · rw [if_pos g] at hp
        have := (List.getElem?_eq_some_iff.mp hp).1
        exact ⟨blk, rfl, g, by omega⟩
      · rw [if_neg g] at hp; cases hp

theorem subVec_ok {h : Heap F} {a : Addr} {x : List (Option F)} (hl : Cells h a x) {n k m : Nat} (hk : 0 < m)
    (hm : k + m ≤ n) (hn : n = x.length) (hbig : n ≤ 2147483647) :
    subVec ⟨some a, n⟩ k m h = .ok ⟨some ⟨a.block, a.off + k⟩, m⟩ := by
  have hi : k < x.length := by omega
  obtain ⟨blk, hb, h1, h2⟩ := peek_length (hl k _ (List.getElem?_eq_getElem hi))
  have hi0 : 0 < x.length := by omega
  simp only at hb h1 h2
  unfold subVec
  rw [i32_of (by unfold InI32; omega), ok_bind]
  simp only
  rw [decide_eq_true (by omega), cassert_true, ok_bind]
  unfold VecMem.advance
  simp only
  rw [hb]
  simp only
  rw [if_pos ⟨h1, by omega⟩, ok_bind]

/-! ## Allocation -/

/-- A new block without contents. -/
theorem alloc_effect (h : Heap F) (n : Nat) :
    Cells (h ++ [some (List.replicate n (none : Option F))]) ⟨h.length, 0⟩ (List.replicate n none) ∧
      Effect h (h ++ [some (List.replicate n none)]) (fun _ => False) (fun c => c = h.length) := by
  constructor
  · intro i c hc
    unfold peek
    simp only [List.getElem?_concat_length]
    rw [if_pos (by omega), show ((0 : Int) + i).toNat = i by omega]
    exact hc
  · refine ⟨?_, ?_, fun c g => .inr (by omega), by rw [List.length_append]; omega⟩
    · intro a ha _
      unfold peek
      rw [List.getElem?_append_left ha]
    · intro c
      unfold Live
      by_cases hc : c < h.length
      · rw [List.getElem?_append_left hc]
        exact ⟨fun g => .inl ⟨g, id⟩, fun g => g.elim (·.1) (fun g => by omega)⟩
      · by_cases hc' : c = h.length
        · subst hc'
          rw [List.getElem?_concat_length]
          exact ⟨fun _ => .inr rfl, fun _ => ⟨_, rfl⟩⟩
        · rw [List.getElem?_eq_none (by rw [List.length_append]; simp only [List.length_singleton]; omega),
            List.getElem?_eq_none (by omega)]
          refine ⟨?_, ?_⟩
          · rintro ⟨_, g⟩
            cases g
          · rintro (⟨⟨_, g⟩, _⟩ | g)
            · cases g
            · exact absurd g hc'

theorem init_vec (h : Heap F) {n : Nat} (hn : 0 < n) (hn4 : n * 4 ≤ 2147483647) :
    VecMem.init 4 (n : Int) h = .ok (⟨some ⟨h.length, 0⟩, n⟩, h ++ [some (List.replicate n none)]) := by
  unfold VecMem.init
  rw [vecInit_ok (by omega) (by omega), ok_bind, if_neg (by omega)]
  rfl

/-- `Vector<float> v(n, kUndefined)`. -/
theorem newRaw_ok (zero : F) (h : Heap F) {n : Nat} (hn : 0 < n) (hn4 : n * 4 ≤ 2147483647) :
    resizePlain zero 4 .empty n false h = .ok (⟨some ⟨h.length, 0⟩, n⟩, h ++ [some (List.replicate n none)]) := by
  unfold resizePlain
  rw [if_neg (fun q => q.1 rfl)]
  unfold destroy
  simp only [Vec.empty]
  rw [ok_bind, init_vec h hn hn4, ok_bind]
  unfold VecMem.zeroIf
  rfl

theorem memset0_fills (zero : F) {h : Heap F} {a : Addr} {x : List (Option F)} (hl : Cells h a x) {n : Int}
    (hn : n = x.length) : Fills (Mat.memset0 zero (some a) n) h a x.length (List.replicate x.length zero) := by
  unfold Fills Mat.memset0
  obtain ⟨h', e, c, o⟩ := loop_cells (f := fun i h => poke h ⟨a.block, a.off + i⟩ (some zero))
    (y := (List.replicate x.length zero).map some) hl (by rw [List.length_map, List.length_replicate]) hn (by
      intro i h1 v hv _ _
      have hi := (List.getElem?_eq_some_iff.mp hv).1
      rw [List.length_map, List.length_replicate] at hi
      rw [List.getElem?_map, List.getElem?_replicate, if_pos hi] at hv
      cases hv
      rfl)
  exact ⟨h', e, cells_line c, o⟩

theorem _root_.Verif.NetMem.Only.apart {h h' : Heap F} {a : Addr} {n : Nat} (p : Only h h' a n) : Apart h h' a.block :=
  ⟨fun b hb => p.block b hb, p.shape⟩

theorem cells_live {h : Heap F} {a : Addr} {x : List (Option F)} (hl : Cells h a x) (hx : 0 < x.length) : Live h a.block := by
  have := live_peek (hl 0 _ (List.getElem?_eq_getElem hx))
  exact this

theorem line_live {h : Heap F} {a : Addr} {x : List F} (hl : Line h a x) (hx : x ≠ []) : Live h a.block :=
  cells_live (line_cells hl) (by rw [List.length_map]; exact List.length_pos_iff.mpr hx)

/-- `Vector<float> v; v.Resize(n)`. -/
theorem newZero_ok (zero : F) (h : Heap F) {n : Nat} (hn : 0 < n) (hn4 : n * 4 ≤ 2147483647) :
    ∃ h', resizePlain zero 4 .empty n true h = .ok (⟨some ⟨h.length, 0⟩, n⟩, h') ∧
      Line h' ⟨h.length, 0⟩ (List.replicate n zero) ∧ Effect h h' (fun _ => False) (fun c => c = h.length) := by
  obtain ⟨c, E⟩ := alloc_effect h n
  obtain ⟨h', e, l, ol⟩ := memset0_fills zero c (n := n) (by rw [List.length_replicate])
  rw [List.length_replicate] at l ol
  refine ⟨h', ?_, l, E.trans (ol.apart.effect (cells_live c (by rw [List.length_replicate]; exact hn)))⟩
  unfold resizePlain
  rw [if_neg (fun q => q.1 rfl)]
  unfold destroy
  simp only [Vec.empty]
  rw [ok_bind, init_vec h hn hn4, ok_bind]
  unfold VecMem.zeroIf
  simp only
  rw [if_pos trivial, e, ok_bind]

theorem free_ok {h : Heap F} {b : Nat} (hb : Live h b) :
    ∃ h', Mat.free h ⟨b, 0⟩ = .ok h' ∧ Effect h h' (fun c => c = b) (fun _ => False) := by
  obtain ⟨blk, hb⟩ := hb
  have hlt := (List.getElem?_eq_some_iff.mp hb).1
  refine ⟨h.set b none, ?_, ?_, ?_, fun c g => absurd g id, by rw [List.length_set]⟩
  · unfold Mat.free
    simp only
    rw [hb]
    simp only
    rw [if_pos trivial]
  · intro a _ hne
    unfold peek
    rw [List.getElem?_set_ne (fun g => hne g.symm)]
  · intro c
    unfold Live
    by_cases hc : b = c
    · subst hc
      rw [List.getElem?_set_self hlt]
      constructor
      · rintro ⟨_, g⟩; cases g
      · rintro (g | g)
        · exact absurd rfl g.2
        · exact absurd g id
    · rw [List.getElem?_set_ne hc]
      exact ⟨fun g => .inl ⟨g, fun g' => hc g'.symm⟩, fun g => g.elim (·.1) (fun g => absurd g id)⟩

/-- The wave buffer is made longer. -/
theorem resizeCopy_ok (zero : F) {h : Heap F} {v : Vec} {x : List F} {P : Nat → Prop} (hv : Has h v x P) {n : Nat}
    (hn : x.length < n) (hn4 : n * 4 ≤ 2147483647) :
    ∃ h' b, resizeCopy zero 4 v n h = .ok (⟨some ⟨b, 0⟩, n⟩, h') ∧
      Line h' ⟨b, 0⟩ (x ++ List.replicate (n - x.length) zero) ∧ Effect h h' P (fun c => c = b) := by
  cases hv with
  | empty =>
    obtain ⟨h', e, l, E⟩ := newZero_ok zero h (n := n) (by omega) hn4
    refine ⟨h', h.length, ?_, l, E⟩
    unfold resizeCopy
    rw [if_pos (.inl rfl), e]
  | full hx hl =>
    rename_i b
    have h0 := List.length_pos_iff.mpr hx
    obtain ⟨c, E⟩ := alloc_effect h n
    have hlt : b < h.length := line_lt hl hx
    have l1 := E.line hl id
    have c1 : Cells (h ++ [some (List.replicate n none)]) ⟨h.length, 0⟩ (List.replicate x.length none) := by
      have := cells_take c x.length
      rw [List.take_replicate, Nat.min_eq_left (by omega)] at this
      exact this
    obtain ⟨h2, e2, l2, o2⟩ := memcpy_fills (n := (x.length : Int)) c1 l1 (by show b ≠ h.length; omega)
      (by rw [List.length_replicate]) (by rw [List.length_replicate])
    rw [List.length_replicate] at o2
    have c2 : Cells h2 ⟨h.length, 0 + (x.length : Int)⟩ (List.replicate (n - x.length) none) := by
      have := cells_drop c x.length
      rw [List.drop_replicate] at this
      exact only_beside o2 (.inr (by simp only; omega)) this
    obtain ⟨h3, e3, l3, o3⟩ := memset0_fills zero c2 (n := (n : Int) - x.length)
      (by rw [List.length_replicate]; omega)
    rw [List.length_replicate] at l3 o3
    have hlive : Live (h ++ [some (List.replicate n none)]) h.length :=
      cells_live c (by rw [List.length_replicate]; omega)
    have E3 : Effect h h3 (fun _ => False) (fun c => c = h.length) :=
      (E.trans (o2.apart.effect hlive)).trans (o3.apart.effect (o2.shape.live _ |>.mpr hlive))
    obtain ⟨h4, e4, E4⟩ := free_ok (line_live (E3.line hl id) hx)
    have l2' : Line h3 ⟨h.length, 0⟩ x := cells_line (only_beside o3 (k := 0) (.inl (by
      rw [List.length_map])) (line_cells l2))
    have lall : Line h3 ⟨h.length, 0⟩ (x ++ List.replicate (n - x.length) zero) := by
      apply cells_line
      rw [List.map_append]
      refine cells_append (line_cells l2') ?_
      rw [List.length_map]
      exact line_cells l3
    refine ⟨h4, h.length, ?_, E4.line lall (by show ¬ h.length = b; omega), ?_⟩
    · unfold resizeCopy
      rw [if_neg (by rintro (g | g); cases g; omega)]
      simp only
      rw [if_neg (by omega), newRaw_ok zero h (by omega) hn4, ok_bind]
      simp only
      unfold VecMem.copyPart
      rw [if_pos (by omega), e2, ok_bind, e3, ok_bind]
      unfold destroy
      simp only
      rw [e4, ok_bind]
    · have E3' := E3.frame (fun c => c = b) (by rintro c rfl; exact ⟨line_live hl hx, id⟩)
      have E4' := E4.frame (fun c => c = h.length) (by
        rintro c rfl
        exact ⟨(E3.live _).mpr (.inr rfl), fun g => absurd hlt (by rw [g]; exact Nat.lt_irrefl _)⟩)
      exact ((E3'.of (fun _ => by simp) (fun c => Or.comm)).trans E4').of (fun _ => Iff.rfl) (fun _ => by simp)

/-- The wave buffer is made shorter. -/
theorem resizeZeroVec_ok (zero : F) {h : Heap F} {b : Nat} {x : List F} (hx : x ≠ []) (hl : Line h ⟨b, 0⟩ x) {n : Nat}
    (hn : 0 < n) (hn4 : n * 4 ≤ 2147483647) :
    ∃ h' c, resizePlain zero 4 ⟨some ⟨b, 0⟩, x.length⟩ n true h = .ok (⟨some ⟨c, 0⟩, n⟩, h') ∧
      Line h' ⟨c, 0⟩ (List.replicate n zero) ∧ Effect h h' (fun c => c = b) (fun d => d = c) := by
  by_cases hs : n = x.length
  · subst hs
    obtain ⟨h', e, l, ol⟩ := memset0_fills zero (line_cells hl) (n := (x.length : Int)) (by rw [List.length_map])
    rw [List.length_map] at l ol
    refine ⟨h', b, ?_, l, ol.apart.effect (line_live hl hx)⟩
    unfold resizePlain
    rw [if_pos ⟨by simp, rfl⟩]
    unfold VecMem.zeroIf
    simp only
    rw [if_pos trivial, e, ok_bind]
  · obtain ⟨h1, e1, E1⟩ := free_ok (line_live hl hx)
    obtain ⟨h2, e2, l2, E2⟩ := newZero_ok zero h1 hn hn4
    refine ⟨h2, h1.length, ?_, l2, E1.trans E2⟩
    unfold resizePlain at e2 ⊢
    rw [if_neg (fun q => q.1 rfl)] at e2
    simp only [destroy, Vec.empty] at e2
    rw [ok_bind] at e2
    rw [if_neg (by rintro ⟨_, g⟩; simp only at g; omega)]
    simp only [destroy]
    rw [e1, ok_bind, e2]

end Verif.FbankMem
