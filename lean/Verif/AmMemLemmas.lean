import Verif.AmMemSpec
import Verif.NetMemNet
import Verif.AmLemmas

/-!
# Frames and batches in memory
-/

namespace Verif.AmMem

open Mat (Heap Addr View peek)
open VecMem (Vec copyVec addVec)
open Nnet (Ops)
open Nnet.Spec (RowWise Built series)
open NetMem
open NetMem.Spec (Line Shows VShows Stored Live InOrder block)
open Spec

variable {F : Type}

/-! ## Effects -/

theorem Spec.Effect.trans {h h' h'' : Heap F} {P Q R : Nat → Prop} (a : Effect h h' P Q) (b : Effect h' h'' Q R) :
    Effect h h'' P R := by
  have hq : ∀ c, c < h.length → ¬ P c → ¬ Q c := fun c hc hp hq => by
    rcases a.fresh c hq with g | g
    · exact hp g
    · omega
  have hl := a.length
  refine ⟨?_, ?_, ?_, Nat.le_trans a.length b.length⟩
  · intro k h1 h2
    rw [b.kept k (by omega) (hq _ h1 h2), a.kept k h1 h2]
  · intro c
    rw [b.live, a.live]
    constructor
    · rintro (⟨g | g, g'⟩ | g)
      · exact .inl g
      · exact absurd g g'
      · exact .inr g
    · rintro (g | g)
      · exact .inl ⟨.inl g, hq c (live_lt g.1) g.2⟩
      · exact .inr g
  · intro c hc
    rcases b.fresh c hc with g | g
    · exact a.fresh c g
    · exact .inr (by omega)

theorem Spec.Effect.frame {h h' : Heap F} {P Q : Nat → Prop} (a : Effect h h' P Q) (X : Nat → Prop)
    (hX : ∀ c, X c → Live h c ∧ ¬ P c) : Effect h h' (fun c => P c ∨ X c) (fun c => Q c ∨ X c) := by
  refine ⟨fun k h1 h2 => a.kept k h1 (fun g => h2 (.inl g)), ?_, ?_, a.length⟩
  · intro c
    rw [a.live]
    constructor
    · rintro (⟨g1, g2⟩ | g)
      · by_cases hx : X c
        · exact .inr (.inr hx)
        · exact .inl ⟨g1, fun g => g.elim g2 hx⟩
      · exact .inr (.inl g)
    · rintro (⟨g1, g2⟩ | g | g)
      · exact .inl ⟨g1, fun g => g2 (.inl g)⟩
      · exact .inr g
      · exact .inl (hX c g)
  · rintro c (g | g)
    · rcases a.fresh c g with k | k
      · exact .inl (.inl k)
      · exact .inr k
    · exact .inl (.inr g)

theorem Spec.Effect.of {h h' : Heap F} {P Q P' Q' : Nat → Prop} (a : Effect h h' P Q) (hP : ∀ c, P c ↔ P' c)
    (hQ : ∀ c, Q c ↔ Q' c) : Effect h h' P' Q' := by
  have e1 : P = P' := funext fun c => propext (hP c)
  have e2 : Q = Q' := funext fun c => propext (hQ c)
  rw [← e1, ← e2]
  exact a

theorem Spec.Effect.refl (h : Heap F) {P : Nat → Prop} (hP : ∀ c, P c → Live h c) : Effect h h P P := by
  refine ⟨fun _ _ _ => rfl, fun c => ⟨fun g => ?_, ?_⟩, fun c g => .inl g, Nat.le_refl _⟩
  · by_cases hc : P c
    · exact .inr hc
    · exact .inl ⟨g, hc⟩
  · rintro (g | g)
    · exact g.1
    · exact hP c g

theorem _root_.Verif.NetMem.Move.effect {h h' : Heap F} {old : Option Nat} {new : Nat} (m : Move h h' old new) :
    Effect h h' (fun c => some c = old) (fun c => c = new) := by
  refine ⟨fun a h1 h2 => m.kept a h2 h1, m.live, ?_, m.length⟩
  rintro c rfl
  rcases m.fresh with g | g
  · exact .inl g.symm
  · exact .inr (by omega)

theorem _root_.Verif.NetMem.Apart.effect {h h' : Heap F} {b : Nat} (m : Apart h h' b) (hb : Live h b) :
    Effect h h' (fun c => c = b) (fun c => c = b) := by
  refine ⟨fun a _ h2 => m.other a h2, ?_, fun c g => .inl g, by rw [m.shape.length]⟩
  intro c
  rw [m.shape.live]
  constructor
  · intro g
    by_cases hc : c = b
    · exact .inr hc
    · exact .inl ⟨g, hc⟩
  · rintro (g | rfl)
    · exact g.1
    · exact hb

theorem Spec.Effect.not {h h' : Heap F} {P Q : Nat → Prop} (a : Effect h h' P Q) {c : Nat} (hc : c < h.length)
    (hp : ¬ P c) : ¬ Q c := fun hq => by
  rcases a.fresh c hq with g | g
  · exact hp g
  · omega

theorem Spec.Effect.line {h h' : Heap F} {P Q : Nat → Prop} (a : Effect h h' P Q) {b : Addr} {x : List F}
    (hl : Line h b x) (hb : ¬ P b.block) : Line h' b x := by
  intro i y hy
  have hne : x ≠ [] := by rintro rfl; cases hy
  exact (a.kept ⟨b.block, b.off + i⟩ (show b.block < _ from line_lt hl hne) hb).trans (hl i y hy)

theorem Spec.Effect.shows {h h' : Heap F} {P Q : Nat → Prop} (a : Effect h h' P Q) {v : View} {b : Addr}
    {m : List (List F)} (s : Shows h v b m) (hb : ¬ P b.block) : Shows h' v b m :=
  s.keep (fun k hk => a.kept k (by rw [hk]; exact live_lt s.live) (by rw [hk]; exact hb))

theorem Spec.Effect.inOrder {h h' : Heap F} {P Q : Nat → Prop} (a : Effect h h' P Q) {v : View} (s : InOrder h v)
    (hb : ∀ c, some c = block v → ¬ P c) : InOrder h' v :=
  s.keep (fun k hk => a.kept k (live_lt (s.live hk.symm)) (hb _ hk))

theorem Spec.Effect.held {h h' : Heap F} {P Q : Nat → Prop} (a : Effect h h' P Q) {q : List (Nat × List F)}
    (s : Held h q) (hb : ∀ c, Owns q c → ¬ P c) : Held h' q :=
  ⟨fun p hp => a.line (s.line p hp) (hb p.1 (List.mem_map_of_mem hp)), s.some, s.nodup⟩

theorem Spec.Held.live {h : Heap F} {q : List (Nat × List F)} (s : Held h q) {c : Nat} (hc : Owns q c) : Live h c := by
  obtain ⟨p, hp, rfl⟩ := List.mem_map.mp hc
  have h0 := List.length_pos_iff.mpr (s.some p hp)
  have := live_peek (s.line p hp 0 _ (List.getElem?_eq_getElem h0))
  exact this

/-! ## What stays where it is -/

theorem Spec.Sub.step {hp h h' : Heap F} {P Q : Nat → Prop} (s : Sub hp h P) (a : Effect h h' P Q) : Sub hp h' Q := by
  intro k c hk
  obtain ⟨h1, h2⟩ := s k c hk
  have hlt : k.block < h.length := live_lt (live_peek h1)
  exact ⟨by rw [a.kept k hlt h2, h1], a.not hlt h2⟩

theorem Spec.Sub.mono {hp h : Heap F} {P Q : Nat → Prop} (s : Sub hp h P) (hq : ∀ c, Q c → P c) : Sub hp h Q :=
  fun k c hk => ⟨(s k c hk).1, fun g => (s k c hk).2 (hq _ g)⟩

theorem Spec.Sub.line {hp h : Heap F} {P : Nat → Prop} (s : Sub hp h P) {a : Addr} {x : List F} (hl : Line hp a x) :
    Line h a x := fun i y hy => (s _ _ (hl i y hy)).1

theorem Spec.Sub.apart {hp h : Heap F} {P : Nat → Prop} (s : Sub hp h P) {a : Addr} {x : List F} (hl : Line hp a x)
    (hx : x ≠ []) : ¬ P a.block := by
  have h0 := List.length_pos_iff.mpr hx
  exact (s _ _ (hl 0 _ (List.getElem?_eq_getElem h0))).2

theorem Spec.Sub.shows {hp h : Heap F} {P : Nat → Prop} (s : Sub hp h P) {v : View} {a : Addr} {m : List (List F)}
    (q : Shows hp v a m) : Shows h v a m :=
  ⟨q.data, q.nonempty, q.rows, q.cols, q.wide, q.stride, q.size, fun i x hx => s.line (q.line i x hx)⟩

theorem Spec.Sub.vshows {hp h : Heap F} {P : Nat → Prop} (s : Sub hp h P) {v : Vec} {x : List F} (q : VShows hp v x) :
    VShows h v x := by
  obtain ⟨a, h1, h2⟩ := q.line
  exact ⟨q.dim, a, h1, s.line h2⟩

theorem Spec.Sub.stored {hp h : Heap F} {P : Nat → Prop} (s : Sub hp h P) {M : LayerM} {l : Nnet.Layer F}
    (q : Stored hp M l) : Stored h M l := by
  cases q with
  | linear h1 h2 => exact .linear (s.shows h1) (s.vshows h2)
  | relu => exact .relu
  | normalize => exact .normalize
  | softmax => exact .softmax
  | logSoftmax => exact .logSoftmax
  | splice idx => exact .splice idx
  | narrow l r => exact .narrow l r
  | batchNorm h1 h2 => exact .batchNorm (s.vshows h1) (s.vshows h2)

/-! ## Appending frames -/

theorem newVec_ok (o : Ops F) (h : Heap F) {n : Nat} (hn : 0 < n) (hn4 : n * 4 ≤ 2147483647) :
    ∃ h', VecMem.resizePlain o.zero 4 .empty n true h = .ok (⟨some ⟨h.length, 0⟩, n⟩, h') ∧
      Line h' ⟨h.length, 0⟩ (List.replicate n o.zero) ∧ Effect h h' (fun _ => False) (fun c => c = h.length) := by
  let v : View := ⟨some ⟨h.length, 0⟩, 1, n, n⟩
  have p : Mat.Proper v ⟨h.length, 0⟩ := ⟨rfl, by show (0 : Int) < 1; omega, by show (0 : Int) < n; omega, Int.le_refl _,
    by show (1 : Int) * n ≤ _; omega⟩
  have hw : Mat.Spec.Writable (h ++ [some (List.replicate n (none : Option F))]) v ⟨h.length, 0⟩ := by
    rintro i j ⟨h1, h2, h3, h4⟩
    have hi : i = 0 := by have : i < 1 := h2; omega
    have hj : j < n := h4
    subst hi
    unfold Mat.Spec.place peek
    simp only [List.getElem?_concat_length]
    rw [if_pos (by omega), List.getElem?_eq_getElem (by rw [List.length_replicate]; omega)]
    rfl
  obtain ⟨h', e, s⟩ := Mat.setZero_ok p (Mat.vs_start hw) o.zero
  have hs := shows_zeros o p (rows := 1) (cols := n) rfl rfl s
  have hsh := setZero_shape e
  have hx : (zeros o 1 n)[0]? = some (List.replicate n o.zero) := rfl
  refine ⟨h', ?_, ?_, ?_⟩
  · unfold VecMem.resizePlain VecMem.destroy VecMem.init VecMem.zeroIf
    rw [if_neg (fun q => q.1 rfl)]
    simp only [Vec.empty, VecMem.Vec.empty]
    rw [ok_bind, vecInit_ok (by omega) (by omega), ok_bind, if_neg (by omega), ok_bind]
    simp only [Mat.alloc, Int.toNat_natCast]
    rw [if_pos trivial]
    unfold Mat.setZero at e
    rw [if_pos rfl, show v.rows * v.cols = n from Int.one_mul _] at e
    rw [show Mat.memset0 o.zero (some ⟨h.length, 0⟩) n (h ++ [some (List.replicate n none)]) = .ok h' from e, ok_bind]
  · have := hs.line 0 _ hx
    rw [show (⟨h.length, (0 : Int) + ((0 : Nat) : Int) * v.stride⟩ : Addr) = ⟨h.length, 0⟩ by
      rw [show ((0 : Nat) : Int) * v.stride = 0 from Int.zero_mul _]; rfl] at this
    exact this
  · refine ⟨?_, ?_, ?_, ?_⟩
    · intro a ha _
      rw [s.other a]
      · unfold peek
        rw [List.getElem?_append_left ha]
      · intro i j _ _ _ _ g
        have := congrArg Addr.block g
        unfold Mat.addr at this
        simp only at this
        omega
    · intro c
      rw [hsh.live]
      unfold Live
      by_cases hc : c < h.length
      · rw [List.getElem?_append_left hc]
        exact ⟨fun g => .inl ⟨g, id⟩, fun g => g.elim (·.1) (fun g => by omega)⟩
      · by_cases hc' : c = h.length
        · subst hc'
          rw [List.getElem?_concat_length]
          exact ⟨fun _ => .inr rfl, fun _ => ⟨_, rfl⟩⟩
        · rw [List.getElem?_eq_none (by rw [List.length_append]; simp only [List.length_singleton]; omega),
            List.getElem?_eq_none (by omega)]
          refine ⟨?_, ?_⟩
          · rintro ⟨_, g⟩
            cases g
          · rintro (⟨⟨_, g⟩, _⟩ | g)
            · cases g
            · exact absurd g hc'
    · intro c g
      exact .inr (by omega)
    · rw [hsh.length, List.length_append]
      omega

theorem appendFrame_ok (o : Ops F) (inst : InstM) {h : Heap F} {a : Addr} {x : List F} (hl : Line h a x) (hx : x ≠ [])
    (h4 : x.length * 4 ≤ 2147483647) :
    ∃ h', appendFrame o inst ⟨some a, x.length⟩ h =
        .ok ({ inst with feats := inst.feats ++ [vecOf (h.length, x)] }, h') ∧
      Line h' ⟨h.length, 0⟩ x ∧ Effect h h' (fun _ => False) (fun c => c = h.length) := by
  have h0 := List.length_pos_iff.mpr hx
  obtain ⟨h1, e1, l1, E1⟩ := newVec_ok o h h0 h4
  have hlt := line_lt hl hx
  obtain ⟨h2, e2, l2, o2⟩ := copyVec_line (n := x.length) (k := x.length) l1 (E1.line hl id)
    (by show a.block ≠ h.length; omega) (by rw [List.length_replicate]) (by rw [List.length_replicate])
    (by rw [List.length_replicate])
  have hlive : Live h1 h.length := (E1.live _).mpr (.inr rfl)
  have A : Apart h1 h2 h.length := ⟨fun b hb => o2.block b hb, o2.shape⟩
  refine ⟨h2, ?_, l2, E1.trans (A.effect hlive)⟩
  unfold appendFrame
  simp only
  rw [e1, ok_bind]
  simp only
  rw [e2, ok_bind]
  rfl

theorem held_cons {h : Heap F} {b : Nat} {x : List F} {q : List (Nat × List F)} (hl : Line h ⟨b, 0⟩ x) (hx : x ≠ [])
    (s : Held h q) (hb : ¬ Owns q b) : Held h ((b, x) :: q) := by
  refine ⟨?_, ?_, ?_⟩
  · intro p hp
    rcases List.mem_cons.mp hp with rfl | hp
    · exact hl
    · exact s.line p hp
  · intro p hp
    rcases List.mem_cons.mp hp with rfl | hp
    · exact hx
    · exact s.some p hp
  · rw [List.map_cons, List.nodup_cons]
    exact ⟨hb, s.nodup⟩

theorem owns_cons (b : Nat) (x : List F) (q : List (Nat × List F)) (c : Nat) : Owns ((b, x) :: q) c ↔ c = b ∨ Owns q c := by
  unfold Owns
  rw [List.map_cons, List.mem_cons]

theorem owns_append (p q : List (Nat × List F)) (c : Nat) : Owns (p ++ q) c ↔ Owns p c ∨ Owns q c := by
  unfold Owns
  rw [List.map_append, List.mem_append]

theorem owns_nil (c : Nat) : ¬ Owns ([] : List (Nat × List F)) c := by
  unfold Owns
  simp

theorem appendTimes_ok (o : Ops F) {a : Addr} {x : List F} (hx : x ≠ []) (h4 : x.length * 4 ≤ 2147483647) :
    ∀ (n : Nat) (inst : InstM) (h : Heap F), Line h a x →
      ∃ new h', appendTimes o ⟨some a, x.length⟩ n inst h =
          .ok ({ inst with feats := inst.feats ++ new.map vecOf }, h') ∧
        new.map Prod.snd = List.replicate n x ∧ Held h' new ∧ Effect h h' (fun _ => False) (Owns new)
  | 0, inst, h, _ => by
    refine ⟨[], h, ?_, rfl, ⟨by simp, by simp, by simp⟩, (Effect.refl h (fun _ g => absurd g id)).of (fun _ => Iff.rfl)
      (fun c => ⟨fun g => absurd g id, owns_nil c⟩)⟩
    unfold appendTimes
    rw [List.map_nil, List.append_nil]
  | n + 1, inst, h, hl => by
    obtain ⟨h1, e1, l1, E1⟩ := appendFrame_ok o inst hl hx h4
    obtain ⟨new, h2, e2, s2, H2, E2⟩ := appendTimes_ok o hx h4 n { inst with feats := inst.feats ++ [vecOf (h.length, x)] } h1
      (E1.line hl id)
    have hlt : h.length < h1.length := line_lt l1 hx
    refine ⟨(h.length, x) :: new, h2, ?_, ?_, ?_, ?_⟩
    · unfold appendTimes
      rw [e1, ok_bind]
      simp only
      rw [e2]
      simp
    · rw [List.map_cons, s2, List.replicate_succ]
    · exact held_cons (E2.line l1 id) hx H2 (E2.not hlt id)
    · have E3 := E2.frame (fun c => c = h.length) (by rintro c rfl; exact ⟨(E1.live _).mpr (.inr rfl), id⟩)
      have E1' : Effect h h1 (fun _ => False) (fun c => False ∨ c = h.length) := E1.of (fun _ => Iff.rfl) (fun c => by simp)
      exact (E1'.trans E3).of (fun _ => Iff.rfl) (fun c => by rw [owns_cons]; exact Or.comm)

/-! ## Removing frames -/

theorem destroyVec_ok {h : Heap F} {b : Nat} {x : List F} (hl : Line h ⟨b, 0⟩ x) (hx : x ≠ []) :
    ∃ h', VecMem.destroy (vecOf (b, x)) h = .ok h' ∧ Effect h h' (fun c => c = b) (fun _ => False) := by
  have h0 := List.length_pos_iff.mpr hx
  have hp := hl 0 _ (List.getElem?_eq_getElem h0)
  have hlive : Live h b := by have := live_peek hp; exact this
  obtain ⟨blk, hb⟩ := hlive
  have hlt := (List.getElem?_eq_some_iff.mp hb).1
  refine ⟨h.set b none, ?_, ?_, ?_, fun c g => absurd g id, by rw [List.length_set]⟩
  · unfold VecMem.destroy vecOf Mat.free
    simp only
    rw [hb]
    simp only
    rw [if_pos trivial]
  · intro a _ ha
    unfold peek
    rw [List.getElem?_set_ne (fun e => ha e.symm)]
  · intro c
    unfold Live
    by_cases hc : b = c
    · subst hc
      rw [List.getElem?_set_self hlt]
      simp
    · rw [List.getElem?_set_ne hc]
      exact ⟨fun g => .inl ⟨g, fun g' => hc g'.symm⟩, fun g => g.elim (·.1) (fun g => absurd g id)⟩

theorem popFront_ok : ∀ (n : Nat) (q : List (Nat × List F)) (h : Heap F), Held h q → n ≤ q.length →
    ∃ h', popFront n (q.map vecOf) h = .ok ((q.drop n).map vecOf, h') ∧ Held h' (q.drop n) ∧
      Effect h h' (Owns q) (Owns (q.drop n))
  | 0, q, h, H, _ => ⟨h, by unfold popFront; rfl, H, Effect.refl h (fun _ g => H.live g)⟩
  | n + 1, [], h, _, hn => by simp at hn
  | n + 1, (b, x) :: q, h, H, hn => by
    have hx := H.some (b, x) (by simp)
    obtain ⟨h1, e1, E1⟩ := destroyVec_ok (H.line (b, x) (by simp)) hx
    have hnd := H.nodup
    rw [List.map_cons, List.nodup_cons] at hnd
    have H' : Held h q := ⟨fun p hp => H.line p (List.mem_cons_of_mem _ hp), fun p hp => H.some p (List.mem_cons_of_mem _ hp),
      hnd.2⟩
    have hne : ∀ c, Owns q c → ¬ c = b := fun c hc g => hnd.1 (by rw [← g]; exact hc)
    obtain ⟨h2, e2, H2, E2⟩ := popFront_ok n q h1 (E1.held H' hne) (by simpa using hn)
    refine ⟨h2, ?_, H2, ?_⟩
    · rw [List.map_cons]
      unfold popFront
      rw [e1, ok_bind, e2]
      rfl
    · have E3 := (E1.frame (Owns q) (fun c hc => ⟨H'.live hc, hne c hc⟩)).of (P' := Owns ((b, x) :: q)) (Q' := Owns q)
        (fun c => (owns_cons b x q c).symm) (fun c => ⟨fun g => g.elim (fun g => absurd g id) id, .inr⟩)
      exact E3.trans E2

end Verif.AmMem
