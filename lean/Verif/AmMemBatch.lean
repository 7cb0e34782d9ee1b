import Verif.AmMemLemmas

/-!
# A batch, a frame and the end of the stream in memory
-/

namespace Verif.AmMem

open Mat (Heap Addr View peek)
open VecMem (Vec copyVec addVec)
open Nnet (Ops)
open Nnet.Spec (RowWise Built series)
open Am (seg seg_length seg_get seg_drop scored Setup Inv toSize toSize_nat)
open NetMem
open NetMem.Spec (Line Shows VShows Stored Live InOrder block)
open Spec

variable {F : Type}

theorem destroyMat_effect {h : Heap F} {v : View} (hv : InOrder h v) :
    ∃ h', Mat.destroy v h = .ok h' ∧ Effect h h' (fun c => some c = block v) (fun _ => False) := by
  obtain ⟨h', e, l, v', p⟩ := destroy_ok hv
  refine ⟨h', e, fun a _ ha => p a ha, fun c => ?_, fun c g => absurd g id, by omega⟩
  rw [v']
  exact ⟨.inl, fun g => g.elim id (fun g => absurd g id)⟩

theorem resizeZero_ok (o : Ops F) {h : Heap F} {v : View} (hv : InOrder h v) :
    ∃ h', resizeTo o v 0 0 h = .ok (.empty, h') ∧ Effect h h' (fun c => some c = block v) (fun _ => False) := by
  obtain ⟨h', e, E⟩ := destroyMat_effect hv
  refine ⟨h', ?_, E⟩
  unfold resizeTo Mat.resizePlain
  rw [if_neg, e, ok_bind]
  · rfl
  · rintro ⟨g1, g2, g3⟩
    rcases hv with q | ⟨b, q, p, w⟩
    · exact g1 q
    · have := p.rows
      omega

section
variable {o : Ops F} {vm : List F → List (List F) → List F} {am : Am.Model F} {M : ModelM} {d e L R c w : Nat}
  {x : Int → List F}

/-- The scores of the frame at a time. -/
def score (o : Ops F) (vm : List F → List (List F) → List F) (am : Am.Model F) (x : Int → List F) (t : Int) : List F :=
  scored o am.logPrior (series o vm am.layers x t)

theorem runBatch_ok (S : Setup o vm am d e L R c w x) (hw : w ≤ 536870911) {hp h : Heap F} (hM : Loaded hp M am)
    {inst : InstM} {q : List (Nat × List F)} (hq : inst.feats = q.map vecOf) (H : Held h q) {a : Int} {N b : Nat}
    (hseg : q.map Prod.snd = seg x a N) (hb1 : 1 ≤ b) (hN : b + L + R ≤ N) (hsz : b ≤ c + R) {out : View}
    (hout : InOrder h out) (hsub : Sub hp h (fun k => some k = block out)) (hqo : ∀ k, Owns q k → some k ≠ block out) :
    ∃ v b' h', runBatch o M inst b out h = .ok (v, h') ∧ Shows h' v ⟨b', 0⟩ (seg (score o vm am x) (a + L) b) ∧
      Effect h h' (fun k => some k = block out) (fun k => k = b') := by
  obtain ⟨hvm, hB, hprior, hl, hr, hch, hc, hs, hbig, hx, _⟩ := S
  have hd : 1 ≤ d ∧ d ≤ w := Nnet.Built.in_size hB
  have hle : b + L + R ≤ c + L + R + R := by omega
  have hsz' : (b + L + R) * w ≤ 2147483647 := Nat.le_trans (Nat.mul_le_mul_right w hle) hs
  have hszd : (b + L + R) * d ≤ 2147483647 := Nat.le_trans (Nat.mul_le_mul_left _ hd.2) hsz'
  have hqN : q.length = N := by
    have := congrArg List.length hseg
    rwa [List.length_map, seg_length] at this
  have hqi : ∀ i : Nat, i < N → ∃ k, q[i]? = some (k, x (a + i)) := by
    intro i hi
    have := congrArg (fun l => l[i]?) hseg
    simp only [List.getElem?_map] at this
    rw [seg_get x a hi, List.getElem?_eq_getElem (by omega)] at this
    rw [List.getElem?_eq_getElem (by omega)]
    generalize q[i]'(by omega) = z at this ⊢
    obtain ⟨k, y⟩ := z
    simp only [Option.map_some, Option.some.injEq] at this
    exact ⟨k, by rw [this]⟩
  -- the input of the network
  obtain ⟨t, bi, h1, e1, s1, c1, m1⟩ := resize_ok o (h := h) (v := .empty) (.inl rfl) (by omega : 0 < b + L + R) hd.1 hszd
    (by omega)
  have hbi : bi = h.length := by
    rcases m1.fresh with g | g
    · cases g
    · exact g
  have hzl : (zeros o (b + L + R) d).length = b + L + R := by unfold zeros; rw [List.length_replicate]
  obtain ⟨h2, e2, s2, a2⟩ := rows_loop (f := fun i h => do
      let r ← rowOf t i
      let f ← aget inst.feats i
      copyVec r f h) (z := seg x a (b + L + R)) s1 (by rw [seg_length, hzl]) (by
      intro y hy
      obtain ⟨i, _, rfl⟩ := List.mem_map.mp hy
      rw [hx, c1]) (by
      intro i u y h3 hu hy l3 a3
      have hi : i < b + L + R := by have := (List.getElem?_eq_some_iff.mp hu).1; omega
      have hul : (u.length : Int) = t.cols := s1.cols u (List.mem_of_getElem? hu)
      rw [seg_get x a hi] at hy
      cases hy
      obtain ⟨k, hk⟩ := hqi i (by omega)
      have hkm : (k, x (a + i)) ∈ q := List.mem_of_getElem? hk
      have hkl : Live h k := H.live (List.mem_map_of_mem hkm)
      have hklt := live_lt hkl
      have lk : Line h3 ⟨k, 0⟩ (x (a + i)) := by
        intro j y hy
        rw [a3.other ⟨k, (0 : Int) + j⟩ (by show k ≠ bi; omega),
          m1.kept ⟨k, (0 : Int) + j⟩ (by intro g; cases g) hklt]
        exact H.line _ hkm j y hy
      have hxl := hx (a + i)
      obtain ⟨h4, e4, p⟩ := copyVec_line (n := t.cols) (k := ((x (a + i)).length : Int)) l3 lk
        (by show k ≠ bi; omega) (by omega) (by omega) (by omega)
      refine ⟨h4, ?_, p⟩
      beta_reduce
      rw [rowOf_ok s1.proper (by rw [s1.rows, hzl]; omega), ok_bind, hq, aget_nat (by rw [List.getElem?_map, hk]; rfl),
        ok_bind, ← e4]
      rfl)
  have m2 := m1.then a2
  have E2 : Effect h h2 (fun k => some k = block out) (fun k => k = bi ∨ some k = block out) :=
    (m2.effect.frame (fun k => some k = block out) (fun k hk => ⟨hout.live hk.symm, by intro g; cases g⟩)).of
      (fun k => ⟨fun g => g.elim (fun g => by cases g) id, .inr⟩) (fun _ => Iff.rfl)
  have hbo : some bi ≠ block out := fun g => by have := live_lt (hout.live g.symm); omega
  have hsub2 := hsub.step E2
  have hout2 : InOrder h2 out := hout.keep (fun k hk => m2.kept k (by intro g; cases g) (live_lt (hout.live hk.symm)))
  -- the network
  have hsh : Nnet.Shows (seg x a (b + L + R)) x a d := by
    refine ⟨s2.nonempty, ?_, ?_⟩
    · intro v hv
      obtain ⟨i, _, rfl⟩ := List.mem_map.mp hv
      exact hx _
    · intro i hi
      rw [seg_length] at hi
      exact seg_get x a hi
  obtain ⟨v, b', h3, y, e3, s3, c3, l3, y3, f3, k3, v3, n3⟩ := propagate_ok hvm hB
    (hM.layers.imp (fun _ _ g => hsub2.stored g)) s2 c1 hout2 (by rw [seg_length]; exact hsz') (by omega)
    (by rw [seg_length]; omega) hsh (by rw [seg_length]; omega)
  rw [seg_length] at l3
  have E3 : Effect h2 h3 (fun k => some k = block out) (fun k => k = b') := by
    refine ⟨fun k g1 g2 => k3 k g2 g1, v3, ?_, n3⟩
    rintro k rfl
    rcases f3 with g | g
    · exact .inl g.symm
    · exact .inr g
  have hlive2 : Live h2 bi := s2.live
  have hbb : bi ≠ b' := E3.not (live_lt hlive2) hbo
  have s2' : Shows h3 t ⟨bi, 0⟩ _ := E3.shows s2 hbo
  have hsub3 := (hsub2.mono (Q := fun k => some k = block out) (fun _ g => .inr g)).step E3
  -- minus the prior
  obtain ⟨pa, hpd, hpl⟩ := hM.prior.line
  have hpv : M.logPrior = ⟨some pa, am.logPrior.length⟩ := by
    have := hM.prior.dim
    rw [← this, ← hpd]
  have he : 1 ≤ e := (Nnet.Built.out_size hB).1
  have hpne : am.logPrior ≠ [] := by
    intro g
    rw [g] at hprior
    simp at hprior
    omega
  have hpa := hsub3.apart hpl hpne
  obtain ⟨h4, e4, s4, a4⟩ := forRows_ok (f := fun _ r h => addVec (fun a b => o.add a (o.mul o.negOne b)) r M.logPrior h)
    (z := y.map (scored o am.logPrior)) s3 (by rw [List.length_map]) (by
      intro z hz
      obtain ⟨u, hu, rfl⟩ := List.mem_map.mp hz
      unfold scored
      rw [List.length_zipWith, c3, y3.2.1 u hu, hprior]
      omega) (by
      intro i u z h5 hu hz l5 a5
      rw [List.getElem?_map, hu] at hz
      cases hz
      have hul := y3.2.1 u (List.mem_of_getElem? hu)
      rw [hpv]
      have lp : Line h5 pa am.logPrior := by
        intro j z hz
        exact (a5.other ⟨pa.block, pa.off + j⟩ hpa).trans (hsub3.line hpl j z hz)
      exact addVec_ok _ l5 lp (by exact hpa) (by omega) (by omega) rfl)
  have E4 := a4.effect s3.live
  -- the end
  have s4' : Shows h4 t ⟨bi, 0⟩ _ := E4.shows s2' hbb
  obtain ⟨h5, e5, E5⟩ := destroyMat_effect s4'.inOrder
  have hbt : block t = some bi := s2.block
  rw [hbt] at E5
  have hne5 : ¬ some b' = some bi := fun g => hbb (Option.some.inj g).symm
  refine ⟨v, b', h5, ?_, ?_, ?_⟩
  · have hd' : (⟨some ⟨(hqi 0 (by omega)).choose, 0⟩, ((x (a + (0 : Nat))).length : Int)⟩ : Vec).dim = (d : Int) := by
      show ((x (a + (0 : Nat))).length : Int) = d
      rw [hx]
    have hfirst : aget inst.feats 0 = .ok (vecOf ((hqi 0 (by omega)).choose, x (a + (0 : Nat)))) := by
      have := (hqi 0 (by omega)).choose_spec
      rw [hq, show (0 : Int) = ((0 : Nat) : Int) from rfl, aget_nat (by rw [List.getElem?_map, this]; rfl)]
    unfold runBatch
    rw [if_neg (by omega), hM.left, hM.right, hl, hr, i32_of (by unfold InI32; omega), ok_bind,
      i32_of (by unfold InI32; omega), ok_bind, show ((b : Int) + L + R) = ((b + L + R : Nat) : Int) by omega,
      toSize_nat (by omega), decide_eq_true (by rw [hq, List.length_map]; omega), cassert_true, ok_bind, hfirst, ok_bind,
      show (vecOf ((hqi 0 (by omega)).choose, x (a + (0 : Nat)))).dim = (d : Int) from hd', e1, ok_bind]
    simp only
    have e2' : fillBatch t inst.feats ((b + L + R : Nat) : Int) h1 = .ok h2 := by
      unfold fillBatch
      rw [← hzl, ← s1.rows]
      exact e2
    rw [e2', ok_bind, e3, ok_bind]
    simp only
    rw [decide_eq_true (by rw [s3.rows]; omega), cassert_true, ok_bind, e4, ok_bind, e5, ok_bind]
  · have hy : y.map (scored o am.logPrior) = seg (score o vm am x) (a + L) b := by
      apply Am.seg_ext
      · rw [List.length_map]; omega
      · intro i hi
        rw [List.getElem?_map, y3.2.2 i (by omega)]
        rfl
    rw [← hy]
    exact E5.shows s4 hne5
  · have F3 := (E3.frame (fun k => k = bi) (by rintro k rfl; exact ⟨hlive2, hbo⟩)).of
      (P' := fun k => k = bi ∨ some k = block out) (fun _ => Or.comm) (fun _ => Iff.rfl)
    have F4 := E4.frame (fun k => k = bi) (by rintro k rfl; exact ⟨s2'.live, hbb⟩)
    have F5 := (E5.frame (fun k => k = b') (by rintro k rfl; exact ⟨s4.live, hne5⟩)).of
      (P' := fun k => k = b' ∨ k = bi) (Q' := fun k => k = b')
      (fun k => ⟨fun g => g.elim (fun g => .inr (Option.some.inj g)) .inl,
        fun g => g.elim .inr (fun g => .inl (by rw [g]))⟩) (fun k => ⟨fun g => g.elim (fun g => absurd g id) id, .inr⟩)
    exact ((E2.trans F3).trans F4).trans F5

end

end Verif.AmMem
