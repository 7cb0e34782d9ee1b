import Verif.EndLemmas
import Verif.IeeeEndSpec
import Verif.IeeeError
import Verif.DecoderProps

/-!
# Helper lemmas: costs that are numbers keep the beam alive
-/

namespace Verif.Ieee

open Verif Verif.Fst Verif.Decoder Verif.Decoder.Beam Verif.Ieee.Spec

/-! ## Sums that are not negative -/

theorem fit_atLeast {f : Format} [Good f] {q v l : Rat} (hl : Rep f l) (h : l ≤ q) (hv : Is (fit f q) v) : l ≤ v := by
  obtain ⟨hr, hv⟩ := hv
  unfold fit at hv
  split at hv
  · injection hv with hv
    rw [← hv]
    have := round_mono f Good.prec h
    rwa [round_self Good.prec hl.1] at this
  · cases hv

theorem is_rep {f : Format} {a : Fl f} {x : Rat} (h : Is a x) : Rep f x := by
  obtain ⟨h, _⟩ := h
  exact h

theorem is_sixteen : Is machine.beam 16 := by
  have h : Rep binary32 16 := by
    refine ⟨⟨1, 4, by decide, by decide, ?_⟩, ?_⟩
    · rw [pow2_eq]; norm_num
    · rw [show pow2 binary32.top = 2 ^ 128 by rw [pow2_eq]; norm_num [binary32]]; norm_num
  exact ⟨h, fit_rep h⟩

theorem is_half : Is machine.beamDelta (1 / 2) := by
  have h : Rep binary32 (1 / 2) := by
    refine ⟨⟨1, -1, by decide, by decide, ?_⟩, ?_⟩
    · rw [pow2_eq]; norm_num
    · rw [show pow2 binary32.top = 2 ^ 128 by rw [pow2_eq]; norm_num [binary32]]; norm_num [abs_of_pos]
  exact ⟨h, fit_rep h⟩

theorem is_dsub {a b : F64} {x y M : Rat} (ha : Is a x) (hb : Is b y) (hM : 1 ≤ M) (hT : M ≤ 2 ^ 120)
    (h : |x - y| ≤ M) : ∃ v, Is (machine.dsub a b) v ∧ |v - (x - y)| ≤ M / 2 ^ 53 ∧ (y ≤ x → 0 ≤ v) := by
  obtain ⟨h2, rfl⟩ := hb
  have hn : Is (neg (.num y h2 : F64)) (-y) := ⟨rep_neg h2, fit_rep (rep_neg h2)⟩
  obtain ⟨h1, rfl⟩ := ha
  obtain ⟨h3, h4⟩ := hn
  have e : machine.dsub (.num x h1 : F64) (.num y h2) = fit binary64 (x - y) := by
    show add (.num x h1 : F64) (neg (.num y h2)) = _
    rw [h4, sub_eq_add_neg]
    rfl
  rw [e]
  obtain ⟨v, g1, g2⟩ := fit64 hM hT h
  exact ⟨v, g1, g2, fun hxy => fit_atLeast rep_zero (by linarith) g1⟩

theorem dadd_ge {a b : F64} {x y v : Rat} (ha : Is a x) (hb : Is b y) (hy : 0 ≤ y) (hv : Is (machine.dadd a b) v) :
    x ≤ v := by
  have hx := is_rep ha
  obtain ⟨h1, rfl⟩ := ha
  obtain ⟨h2, rfl⟩ := hb
  exact fit_atLeast hx (by linarith) hv

theorem toF_ge_zero {a : F64} {x v : Rat} (ha : Is a x) (hx : 0 ≤ x) (hv : Is (machine.toF a) v) : 0 ≤ v := by
  obtain ⟨h1, rfl⟩ := ha
  exact fit_atLeast rep_zero hx hv

/-! ## The cutoffs -/

theorem num_finite {y : F64} {z : Rat} (h : Is y z) : machine.finite y = true ∧ machine.dlt y machine.inf = true := by
  obtain ⟨_, rfl⟩ := h
  exact ⟨rfl, rfl⟩

/-- Tokens whose costs are numbers have a cutoff, and the adaptive beam is not negative. -/
theorem cutoff_num {M : Rat} (hM : 16 ≤ M) (hT : M ≤ 2 ^ 110) {l : List (Token F32)}
    (hl : ∀ t ∈ l, ∃ v, Is t.cost v ∧ |v| ≤ M) {cut : F64} {ab : F32} {best : Token F32}
    (h : getCutoff machine l = .ok (cut, ab, best)) :
    best ∈ l ∧ (∃ z, Is cut z ∧ |z| ≤ 4 * M) ∧ (∃ y, Is ab y ∧ 0 ≤ y ∧ y ≤ 8 * M) ∧
      machine.flt (machine.toF cut) best.cost = false := by
  obtain ⟨t0, cs, bc, h0, h1, h2⟩ := getCutoff_cases h
  obtain ⟨_, h3, h4, h5⟩ := cutoffLoop_spec machine_order h1
  have ht0 : t0 ∈ l := List.mem_of_head? h0
  have h4' : best ∈ l ∧ bc = machine.toD best.cost := by
    rcases h4 with ⟨rfl, rfl⟩ | ⟨h, h', _⟩
    · obtain ⟨v, hv, _⟩ := hl best ht0
      have := h3 best ht0
      rw [(num_finite (is_toD hv)).2] at this
      cases this
    · exact ⟨h, h'⟩
  obtain ⟨hb, rfl⟩ := h4'
  obtain ⟨vb, hvb, hvm⟩ := hl best hb
  have hvm' := abs_le.1 hvm
  have hbd := is_toD hvb
  refine ⟨hb, ?_⟩
  obtain ⟨c16, g1, g2⟩ := is_dadd hbd (is_toD is_sixteen) (M := 2 * M) (by linarith) (by linarith)
    (abs_le.2 ⟨by linarith [hvm'.1], by linarith [hvm'.2]⟩)
  have g3 : vb ≤ c16 := dadd_ge hbd (is_toD is_sixteen) (by norm_num) g1
  have g2' := abs_le.1 g2
  have wide : (∃ z, Is (machine.dadd (machine.toD best.cost) (machine.toD machine.beam)) z ∧ |z| ≤ 4 * M) :=
    ⟨c16, g1, abs_le.2 ⟨by linarith [g2'.1, hvm'.1], by linarith [g2'.2, hvm'.2]⟩⟩
  have low : ∀ {a : F64} {x : Rat}, Is a x → |x| ≤ 4 * M → vb ≤ x → machine.flt (machine.toF a) best.cost = false := by
    intro a x ha hx hle
    obtain ⟨v, k1, _⟩ := is_toF ha (M := 4 * M) (by linarith) (by linarith) hx
    rw [flt_is k1 hvb, decide_eq_false_iff_not, not_lt]
    obtain ⟨_, rfl⟩ := ha
    exact fit_atLeast (is_rep hvb) hle k1
  rcases h2 with ⟨hn, _⟩ | ⟨_, m, hm, hc⟩
  · rw [(num_finite hbd).1] at hn; cases hn
  · unfold chooseCutoff at hc
    have plain : (cut, ab) = (machine.dadd (machine.toD best.cost) (machine.toD machine.beam), machine.beam) →
        (∃ z, Is cut z ∧ |z| ≤ 4 * M) ∧ (∃ y, Is ab y ∧ 0 ≤ y ∧ y ≤ 8 * M) ∧
          machine.flt (machine.toF cut) best.cost = false := by
      intro hc
      injection hc with hc1 hc2
      subst hc1 hc2
      refine ⟨wide, ⟨16, is_sixteen, by norm_num, by linarith⟩, low g1 ?_ g3⟩
      exact abs_le.2 ⟨by linarith [g2'.1, hvm'.1], by linarith [g2'.2, hvm'.2]⟩
    cases m with
    | none => exact plain hc
    | some m =>
      simp only at hc
      split at hc
      · rcases h5 m (maxActive_mem hm) with h | ⟨u, hu, rfl⟩
        · simp at h
        · obtain ⟨vu, hvu, hum⟩ := hl u hu
          have hum' := abs_le.1 hum
          have hle := h3 u hu
          rw [dlt_is (is_toD hvu) hbd, decide_eq_false_iff_not, not_lt] at hle
          injection hc with hc1 hc2
          subst hc1 hc2
          obtain ⟨df, d1, d2, d3⟩ := is_dsub (is_toD hvu) hbd (M := 2 * M) (by linarith) (by linarith)
            (abs_le.2 ⟨by linarith [hvm'.2, hum'.1], by linarith [hvm'.1, hum'.2]⟩)
          have d2' := abs_le.1 d2
          have d3 := d3 hle
          have hdf : df ≤ 3 * M := by linarith [d2'.2, hvm'.1, hum'.2]
          obtain ⟨s, s1, s2⟩ := is_dadd d1 (is_toD is_half) (M := 4 * M) (by linarith) (by linarith)
            (abs_le.2 ⟨by linarith, by linarith⟩)
          have s2' := abs_le.1 s2
          have s3 : df ≤ s := dadd_ge d1 (is_toD is_half) (by norm_num) s1
          have hs : s ≤ 5 * M := by linarith [s2'.2]
          obtain ⟨y, y1, y2⟩ := is_toF s1 (M := 5 * M) (by linarith) (by linarith) (abs_le.2 ⟨by linarith, hs⟩)
          have y2' := abs_le.1 y2
          refine ⟨⟨vu, is_toD hvu, by linarith⟩, ⟨y, y1, toF_ge_zero s1 (by linarith) y1, by linarith [y2'.2]⟩, ?_⟩
          exact low (is_toD hvu) (by linarith) hle
      · exact plain hc

/-! ## One frame -/

/-- A loop that passes by an element after which `J` holds. -/
theorem foldlM_pass {α β : Type} {I J : β → Prop} {f : β → α → Exec β} {x : α} : ∀ {l : List α} {b b' : β}, x ∈ l →
    (∀ b y b', y ∈ l → I b → f b y = .ok b' → I b') → (∀ b b', I b → f b x = .ok b' → J b') →
    (∀ b y b', y ∈ l → I b → J b → f b y = .ok b' → J b') → I b → l.foldlM f b = .ok b' → I b' ∧ J b'
  | [], _, _, hx, _, _, _, _, _ => by cases hx
  | y :: l, b, b', hx, hI, hJ, hK, hb, h => by
    rw [List.foldlM_cons] at h
    obtain ⟨b1, h1, h2⟩ := bind_ok h
    have hb1 := hI b y b1 (by simp) hb h1
    by_cases hxy : x = y
    · subst hxy
      refine foldlM_inv (P := fun b => I b ∧ J b) ?_ ⟨hb1, hJ b b1 hb h1⟩ h2
      intro b y b' hy hb hf
      exact ⟨hI b y b' (by simp [hy]) hb.1 hf, hK b y b' (by simp [hy]) hb.1 hb.2 hf⟩
    · have hx' : x ∈ l := by
        rcases List.mem_cons.mp hx with h | h
        · exact absurd h hxy
        · exact h
      exact foldlM_pass hx' (fun b y b' hy => hI b y b' (by simp [hy])) hJ (fun b y b' hy => hK b y b' (by simp [hy]))
        hb1 h2

variable {e : Env F32 F64}

/-- The cutoff for the next frame is a number, or nothing was looked at. -/
def Num (M : Rat) (a : F64) : Prop := ∃ z, Is a z ∧ |z| ≤ M

theorem tighten_num {M : Rat} (hM : 16 ≤ M) (hT : M ≤ 2 ^ 110) {ab : F32} {y : Rat} (hab : Is ab y) (hy : 0 ≤ y)
    (hyM : y ≤ 8 * M) {tot nwc : F64} {u : Rat} (hu : Is tot u) (huM : |u| ≤ M) :
    (tighten machine ab nwc tot = nwc ∨ ∃ z, Is (tighten machine ab nwc tot) z ∧ |z| ≤ 16 * M ∧ u ≤ z) ∧
      (nwc = machine.inf → ∃ z, Is (tighten machine ab nwc tot) z ∧ |z| ≤ 16 * M ∧ u ≤ z) := by
  have hu' := abs_le.1 huM
  obtain ⟨z, z1, z2⟩ := is_dadd hu (is_toD hab) (M := 9 * M) (by linarith) (by linarith)
    (abs_le.2 ⟨by linarith [hu'.1], by linarith [hu'.2]⟩)
  have z2' := abs_le.1 z2
  have z3 : u ≤ z := dadd_ge hu (is_toD hab) hy z1
  have zb : |z| ≤ 16 * M := abs_le.2 ⟨by linarith [z2'.1, hu'.1], by linarith [z2'.2, hu'.2]⟩
  unfold tighten
  constructor
  · split
    · exact .inr ⟨z, z1, zb, z3⟩
    · exact .inl rfl
  · rintro rfl
    rw [if_pos (num_finite z1).2]
    exact ⟨z, z1, zb, z3⟩

/-- Where the costs of tokens and arcs are numbers, and the tokens have somewhere to go, the frame is not refused. -/
theorem process_alive (he : e.ar = machine) {M : Rat} (hM : 16 ≤ M) (hT : M ≤ 2 ^ 110) {f : List F32} {fuel : Nat}
    {d d' : Dec F32} (hp : d.prev = [])
    (hcost : ∀ t ∈ d.toks, ∃ v, Is t.cost v ∧ |v| ≤ M)
    (harc : ∀ t ∈ d.toks, ∀ a ∈ e.g.arcs t.state.1, a.ilabel ≠ 0 → ∀ v, IsScore e f a.ilabel v →
      ∃ u, Is (e.ar.toD (e.ar.fadd (e.ar.fadd t.cost a.weight) (e.ar.fneg v))) u ∧ |u| ≤ M)
    (hgo : ∀ t ∈ d.toks, ∃ a ∈ e.g.arcs t.state.1, a.ilabel ≠ 0) {b : Bool} {c : Option (Cutoffs F32 F64)}
    (h : process e fuel f d = .ok (b, c, d')) : b = true := by
  obtain ⟨d1, h1, h2⟩ := process_cases h
  obtain ⟨cut, ab, best, k1, k2⟩ := processEmitting_cases h1
  rw [he] at k1
  obtain ⟨hb, ⟨zc, c1, c2⟩, ⟨y, y1, y2, y3⟩, hbc⟩ := cutoff_num hM hT hcost k1
  obtain ⟨wv, w1, _⟩ := is_toF c1 (M := 4 * M) (by linarith) (by linarith) c2
  have hfin : e.ar.finite (e.ar.toD (e.ar.toF cut)) = true := by
    rw [he]; exact (num_finite (is_toD w1)).1
  rcases k2 with ⟨_, _, hn⟩ | ⟨_, nwc0, nwc, d2, b1, b2, rfl, rfl⟩
  · rw [hfin] at hn; cases hn
  -- the cutoff from the best token
  obtain ⟨a0, ha0, hl0⟩ := hgo best hb
  have first : ∃ a ∈ e.g.arcs best.state.1, a.ilabel ≠ 0 ∧ ∃ v u z, IsScore e f a.ilabel v ∧
      Is (e.ar.toD (e.ar.fadd (e.ar.fadd best.cost a.weight) (e.ar.fneg v))) u ∧ Is nwc0 z ∧ |z| ≤ 16 * M ∧ u ≤ z := by
    let J : F64 → Prop := fun n => ∃ a ∈ e.g.arcs best.state.1, a.ilabel ≠ 0 ∧ ∃ v u z, IsScore e f a.ilabel v ∧
      Is (e.ar.toD (e.ar.fadd (e.ar.fadd best.cost a.weight) (e.ar.fneg v))) u ∧ Is n z ∧ |z| ≤ 16 * M ∧ u ≤ z
    have step : ∀ n a n', a ∈ e.g.arcs best.state.1 → (n = machine.inf ∨ J n) → bestArc e f ab best.cost n a = .ok n' →
        (a.ilabel = 0 ∧ n' = n) ∨ J n' := by
      intro n a n' ha hn hf
      unfold bestArc at hf
      split at hf
      · rename_i hl
        cases hf
        exact .inl ⟨hl, rfl⟩
      · rename_i hl
        obtain ⟨tot, t1, t2⟩ := bind_ok hf
        cases t2
        obtain ⟨v, hv, rfl⟩ := emitTotal_ok t1
        obtain ⟨u, u1, u2⟩ := harc best hb a ha hl v hv
        obtain ⟨q1, q2⟩ := tighten_num hM hT y1 y2 y3 (nwc := n) u1 u2
        right
        rw [show tighten e.ar = tighten machine by rw [he]]
        rcases hn with hn | hn
        · obtain ⟨z, z1, z2, z3⟩ := q2 hn
          exact ⟨a, ha, hl, v, u, z, hv, u1, z1, z2, z3⟩
        · rcases q1 with q1 | ⟨z, z1, z2, z3⟩
          · rw [q1]; exact hn
          · exact ⟨a, ha, hl, v, u, z, hv, u1, z1, z2, z3⟩
    refine (foldlM_pass (I := fun n => n = machine.inf ∨ J n) (J := J) (x := a0) ha0 ?_ ?_ ?_ (.inl (by rw [he])) b1).2
    · intro n a n' ha hn hf
      rcases step n a n' ha hn hf with ⟨_, rfl⟩ | hj
      · exact hn
      · exact .inr hj
    · intro n n' hn hf
      rcases step n a0 n' ha0 hn hf with ⟨h0, _⟩ | hj
      · exact absurd h0 hl0
      · exact hj
    · intro n a n' ha _ hj hf
      rcases step n a n' ha (.inr hj) hf with ⟨_, rfl⟩ | hj'
      · exact hj
      · exact hj'
  obtain ⟨a1, ha1, hl1, v1, u1, z0, s1, s2, s3, s4, s5⟩ := first
  -- the loop over tokens
  let I : F64 × Dec F32 → Prop := fun b => IndexExact b.2 ∧ Num (16 * M) b.1 ∧ (b.2.toks ≠ [] ∨ b.1 = nwc0)
  let J : F64 × Dec F32 → Prop := fun b => b.2.toks ≠ []
  have arc : ∀ t ∈ d.toks, ∀ b a b', a ∈ e.g.arcs t.state.1 → I b → emitArc e f ab t b a = .ok b' →
      I b' ∧ (J b → J b') ∧ (t = best → a = a1 → J b') := by
    rintro t ht ⟨n, dd⟩ a ⟨n', dd'⟩ ha hI hf
    rcases emitArc_cases hf with ⟨h0, rfl, rfl⟩ | ⟨v, h0, hv, ⟨hlt, rfl, rfl⟩ | ⟨hlt, l, k, ins, _, _, _, hi, rfl⟩⟩
    · exact ⟨hI, id, fun _ ha => absurd (ha ▸ h0) hl1⟩
    · refine ⟨hI, id, ?_⟩
      rintro rfl rfl
      rcases hI.2.2 with hne | rfl
      · exact hne
      · have : v = v1 := IsScore.unique hv s1
        subst this
        rw [he] at hlt s2
        rw [dlt_is s3 s2, decide_eq_true_eq] at hlt
        linarith
    · have hin := insertTok_ins hI.1 hi
      have hne : dd'.toks ≠ [] := by
        obtain ⟨q, hq, _⟩ := hin.here
        exact List.ne_nil_of_mem hq
      obtain ⟨u, q1, q2⟩ := harc t ht a ha h0 v hv
      refine ⟨⟨hin.exact, ?_, .inl hne⟩, fun _ => hne, fun _ _ => hne⟩
      rcases (tighten_num hM hT y1 y2 y3 (nwc := n) q1 q2).1 with q | ⟨z, z1, z2, _⟩
      · show Num _ (tighten e.ar ab n _)
        rw [he] at q ⊢
        rw [q]; exact hI.2.1
      · rw [he] at z1
        show Num _ (tighten e.ar ab n _)
        rw [he]
        exact ⟨z, z1, z2⟩
  have tok : ∀ t ∈ d.toks, ∀ b b', I b → emitTok e f (e.ar.toF cut) ab b t = .ok b' →
      I b' ∧ (J b → J b') ∧ (t = best → J b') := by
    intro t ht b b' hI hf
    unfold emitTok at hf
    split at hf
    · rename_i hlt
      cases hf
      refine ⟨hI, id, ?_⟩
      rintro rfl
      rw [he, hbc] at hlt
      cases hlt
    · obtain ⟨⟨n, dd⟩, f1, f2⟩ := bind_ok hf
      cases f2
      have g1 := foldlM_inv (P := fun c => I c ∧ (J b → J c)) (fun c a c' ha hc hf =>
        ⟨(arc t ht c a c' ha hc.1 hf).1, fun hb => (arc t ht c a c' ha hc.1 hf).2.1 (hc.2 hb)⟩) ⟨hI, id⟩ f1
      refine ⟨g1.1, g1.2, ?_⟩
      rintro rfl
      exact (foldlM_pass (I := I) (J := J) ha1 (fun c a c' ha hc hf => (arc t ht c a c' ha hc hf).1)
        (fun c c' hc hf => (arc t ht c a1 c' ha1 hc hf).2.2 rfl rfl)
        (fun c a c' ha hc hj hf => (arc t ht c a c' ha hc hf).2.1 hj) hI f1).2
  obtain ⟨⟨g1, ⟨zn, n1, n2⟩, _⟩, g3⟩ := foldlM_pass (I := I) (J := J) hb
    (fun c t c' ht hc hf => (tok t ht c c' hc hf).1) (fun c c' hc hf => (tok best hb c c' hc hf).2.2 rfl)
    (fun c t c' ht hc hj hf => (tok t ht c c' hc hf).2.1 hj)
    ⟨by intro s i; simp [swapped, hp], ⟨z0, s3, s4⟩, .inr rfl⟩ b2
  obtain ⟨tv, t1, _⟩ := is_toF n1 (M := 16 * M) (by linarith) (by linarith) n2
  rcases h2 with ⟨h, _⟩ | ⟨c', hc', ⟨hn, _⟩ | ⟨_, d3, h3, ⟨hnil, _⟩ | ⟨_, rfl, _⟩⟩⟩
  · cases h
  · cases hc'
    rw [he, (num_finite (is_toD t1)).1] at hn
    cases hn
  · have := (processNonemitting_inv (Q := fun _ => True) (fun _ _ _ _ _ _ _ _ => trivial)
      (d := { d2 with prev := [] }) g1 (fun _ _ => trivial) h3).2.2
    obtain ⟨t, l, hl⟩ := List.exists_cons_of_ne_nil g3
    obtain ⟨t', ht', _⟩ := this.states 0 t (by show d2.toks[0]? = _; rw [hl]; rfl)
    rw [hnil] at ht'
    cases ht'
  · rfl

/-! ## Moderate costs -/

variable {P : Int → Prop} {width N k : Nat}

theorem path_place (h : Sturdy e P width N k) {s0 : State} (hs : StartState e s0) {fs : List (List F32)}
    {p : List (GArc F32)} {s : State} {c : F32} (hp : PathTo e s0 fs p s c) : Place e P s := by
  induction hp with
  | nil =>
    obtain ⟨s', h1, h2, _⟩ := h.startState
    rw [hs.unique h1]; exact h2
  | eps _ ha _ hm ih =>
    obtain ⟨l, m, h1, h2⟩ := h.move ih ha
    have := LmMove.unique_place h1 hm
    subst this
    exact h2
  | emit _ ha _ _ _ hm ih =>
    obtain ⟨l, m, h1, h2⟩ := h.move ih ha
    have := LmMove.unique_place h1 hm
    subst this
    exact h2

/-- What one word of the language model costs. -/
theorem modest_lm {W : Rat} (hW : 0 ≤ W) (hm : Modest e P W) {g s s' : Int} {a : GArc F32} (ha : a ∈ e.g.arcs g)
    {m : F64 → F64} (h : LmMove e s a.olabel s' m) (hP : e.lm ≠ none → P s) :
    ∃ v, LmCost e s a.olabel s' v ∧ |v| ≤ W := by
  generalize hl : a.olabel = l at h ⊢
  cases h with
  | off h => exact ⟨0, .off h, by simpa using hW⟩
  | silent h => exact ⟨0, .silent h, by simpa using hW⟩
  | word h h1 h2 =>
    obtain ⟨w, w1, w2⟩ := hm.lmArc _ h s (hP (by rw [h]; simp)) g a ha (by rw [hl]; exact h1) _ (by rw [hl]; exact h2)
    exact ⟨w, .word h h1 h2 w1, w2⟩
  | unknown h h1 h2 => exact ⟨0, .unknown h h1 h2, by simpa using hW⟩

theorem calm_score {S : Rat} {fs : List (List F32)} (hc : Calm e S fs) {f : List F32} (hf : f ∈ fs) {t : Int} {v : F32}
    (h : IsScore e f t v) : ∃ y, ScoreOf e f t y ∧ |y| ≤ S := by
  obtain ⟨r, h1, h2⟩ := hc
  obtain ⟨ti, pi, lp, g1, g2, g3, _⟩ := h
  obtain ⟨q, q1, q2⟩ := h2 f hf lp (List.mem_of_getElem? g3)
  exact ⟨r * q, ⟨ti, pi, lp, q, r, g1, g2, g3, q1, h1, rfl⟩, q2⟩

/-- With moderate costs, what is needed to bound rounding errors holds of all paths. -/
theorem modest_mild (h : Sturdy e P width N k) {W S : Rat} (hW : 0 ≤ W) (hS : 0 ≤ S) (hm : Modest e P W)
    {fs : List (List F32)} (hc : Calm e S fs) {s0 : State} (hs : StartState e s0) {n : Nat}
    (hn : fs.length * (k + 1) + k ≤ n) {B : Rat} (hB : (n + 1) * (2 * W + S) ≤ B) (eos : Bool) :
    Mild e s0 fs eos B n := by
  have hq : (0 : Rat) ≤ n := by positivity
  have hone : 2 * W + S ≤ B := by
    have : (0 : Rat) ≤ n * (2 * W + S) := by positivity
    linarith
  have hlen : ∀ p s c, PathTo e s0 fs p s c → p.length ≤ n := by
    intro p s c hp
    obtain ⟨j, j1, _, _⟩ := path_length h.silent hp
    have := Nat.mul_le_mul_right (k + 1) (emitted_le hp)
    omega
  have sum : ∀ p s c, PathTo e s0 fs p s c → ∃ x, Exact e s0 fs B p s x ∧ |x| ≤ p.length * (2 * W + S) := by
    intro p s c hp
    induction hp with
    | nil => exact ⟨0, .nil, by simp⟩
    | @eps p s c a l m h1 h2 h3 h4 ih =>
      obtain ⟨x, x1, x2⟩ := ih
      obtain ⟨w, w1, w2⟩ := hm.arc _ a h2
      obtain ⟨v, v1, v2⟩ := modest_lm hW hm h2 h4 (path_place h hs h1).2.2
      have hl := hlen _ _ _ (.eps h1 h2 h3 h4)
      have hl' : (((p ++ [a]).length : Nat) : Rat) ≤ n := by exact_mod_cast hl
      have hx : |x + w + v| ≤ ((p ++ [a]).length : Nat) * (2 * W + S) := by
        rw [List.length_append]
        push_cast [List.length_cons, List.length_nil]
        have x2' := abs_le.1 x2
        have w2' := abs_le.1 w2
        have v2' := abs_le.1 v2
        exact abs_le.2 ⟨by linarith [x2'.1, w2'.1, v2'.1], by linarith [x2'.2, w2'.2, v2'.2]⟩
      have hxB : |x + w + v| ≤ B := by
        have : (((p ++ [a]).length : Nat) : Rat) * (2 * W + S) ≤ n * (2 * W + S) := by gcongr
        linarith
      exact ⟨_, .eps x1 h2 h3 w1 v1 (by linarith) (by linarith) hxB, hx⟩
    | @emit p s c sc a l m f h1 h2 h3 h4 h5 h6 ih =>
      obtain ⟨x, x1, x2⟩ := ih
      obtain ⟨w, w1, w2⟩ := hm.arc _ a h2
      obtain ⟨v, v1, v2⟩ := modest_lm hW hm h2 h6 (path_place h hs h1).2.2
      obtain ⟨y, y1, y2⟩ := calm_score hc (List.mem_of_getElem? h4) h5
      have hl := hlen _ _ _ (.emit h1 h2 h3 h4 h5 h6)
      have hl' : (((p ++ [a]).length : Nat) : Rat) ≤ n := by exact_mod_cast hl
      have hx : |x + w - y + v| ≤ ((p ++ [a]).length : Nat) * (2 * W + S) := by
        rw [List.length_append]
        push_cast [List.length_cons, List.length_nil]
        have x2' := abs_le.1 x2
        have w2' := abs_le.1 w2
        have v2' := abs_le.1 v2
        have y2' := abs_le.1 y2
        exact abs_le.2 ⟨by linarith [x2'.1, w2'.1, v2'.1, y2'.2], by linarith [x2'.2, w2'.2, v2'.2, y2'.1]⟩
      have hxB : |x + w - y + v| ≤ B := by
        have : (((p ++ [a]).length : Nat) : Rat) * (2 * W + S) ≤ n * (2 * W + S) := by gcongr
        linarith
      exact ⟨_, .emit x1 h2 h3 h4 y1 w1 v1 (by linarith) (by linarith) (by linarith) hxB, hx⟩
  refine ⟨fun p s c hp => ?_, ?_, ?_, ?_⟩
  · obtain ⟨x, hx, _⟩ := sum p s c hp
    exact ⟨hlen p s c hp, x, hx⟩
  · rintro p s x a f _ ha hl hf ⟨v, hv⟩
    obtain ⟨w, w1, w2⟩ := hm.arc _ a ha
    obtain ⟨y, y1, y2⟩ := calm_score hc (List.mem_of_getElem? hf) hv
    exact ⟨w, y, y1, w1, by linarith, by linarith⟩
  · intro p s c _
    rcases hm.final s.1 with h | ⟨w, w1, w2⟩
    · exact .inl h
    · exact .inr ⟨w, w1, by linarith⟩
  · intro p s c lm u hp hlm hu
    rcases hm.lmFinal lm hlm s.2 ((path_place h hs hp).2.2 (by rw [hlm]; simp)) u hu with h | ⟨w, w1, w2⟩
    · exact .inl h
    · exact .inr ⟨w, w1, by linarith⟩

/-! ## All frames -/

variable {s0 : State} {fs : List (List F32)} {B : Rat} {n : Nat} {eos : Bool}

theorem path_goes (hv : Lively e.g) (hs : StartState e s0) {p : List (GArc F32)} {s : State} {c : F32}
    (hp : PathTo e s0 fs p s c) : ∃ a ∈ e.g.arcs s.1, a.ilabel ≠ 0 := by
  cases hp with
  | nil => rw [hs.1]; exact hv.start
  | eps _ ha _ _ => exact hv.next _ _ ha
  | emit _ ha _ _ _ _ => exact hv.next _ _ ha

/-- What is known of the tokens of a run over the first frames. -/
theorem run_tokens (he : e.ar = machine) (hB : 16 ≤ B) (hT : B ≤ 2 ^ 100) (hn : n ≤ 2 ^ 20) (hm : Mild e s0 fs eos B n)
    (hs : StartState e s0) {gs : List (List F32)} (hg : gs <+: fs) {bs : List Bool}
    {cs : List (Option (Cutoffs F32 F64))} {d : Dec F32} (h : Run e gs bs cs d) :
    ∀ t ∈ d.toks, ∃ p x v, PathTo e s0 fs p t.state t.cost ∧ emitted p = gs.length ∧ t.hist.length ≤ n ∧
      Exact e s0 fs B p t.state x ∧ Is t.cost v ∧ |v - x| ≤ B ∧ |v| ≤ 2 * B := by
  intro t ht
  have hB1 : 1 ≤ B := by linarith
  obtain ⟨p, h1, h2, h3⟩ := h.inv.paths s0 hs t ht
  have h1 := PathTo.more h1 hg
  obtain ⟨x, v, x1, x2, x3⟩ := mild_cost he hB1 hT hn hm h1
  have hx := abs_le.1 (Exact.le hB1 x1)
  have hd := abs_le.1 (x3.trans (slack_le hB1 hn))
  refine ⟨p, x, v, h1, h2, ?_, x1, x2, x3.trans (slack_le hB1 hn), abs_le.2 ⟨by linarith [hx.1, hd.1], by linarith [hx.2, hd.2]⟩⟩
  rw [h3, List.length_reverse]
  have h4 : (wordsOf p).length ≤ p.length := by
    unfold wordsOf
    exact (List.length_filter_le _ _).trans (by rw [List.length_map])
  exact h4.trans (hm.path _ _ _ h1).1

/-- No frame is refused, however many tokens there are. -/
theorem run_alive (he : e.ar = machine) (hB : 16 ≤ B) (hT : B ≤ 2 ^ 100) (hn : n ≤ 2 ^ 20) (hm : Mild e s0 fs eos B n)
    (hs : StartState e s0) (hv : Lively e.g) : Alive e fs := by
  intro gs bs cs d hg h
  have hB1 : 1 ≤ B := by linarith
  induction h with
  | init _ => simp
  | @frame gs bs cs d d' fuel f b c h hp ih =>
    have hg' : gs <+: fs := (List.prefix_append gs [f]).trans hg
    have hb := ih hg'
    have hf : fs[gs.length]? = some f := by
      obtain ⟨t, rfl⟩ := hg
      simp
    have tk := run_tokens he hB hT hn hm hs hg' h
    have : b = true := by
      refine process_alive he (M := 8 * B) (by linarith) (by linarith) (h.inv.alive hb).2 ?_ ?_ ?_ hp
      · intro t ht
        obtain ⟨_, _, v, _, _, _, _, h1, _, h2⟩ := tk t ht
        exact ⟨v, h1, by linarith⟩
      · intro t ht a ha hl sc hsc
        obtain ⟨p, x, v, h1, h2, _, h3, h4, h5, _⟩ := tk t ht
        rw [← h2] at hf
        obtain ⟨w, y, y1, w1, w2, y2⟩ := hm.reach p t.state x a f h3 ha hl hf ⟨sc, hsc⟩
        obtain ⟨sc', A, q1, q2, q3, q4⟩ := score_err he hB1 hT y1 y2
        have hx := Exact.le hB1 h3
        cases q4 sc hsc
        obtain ⟨u, u1, u2⟩ := arc_err he hB1 hT (le_refl B) h4 hx h5 w1 w2 q2 q3 (by rwa [abs_neg])
        refine ⟨u, u1, ?_⟩
        have u2' := abs_le.1 u2
        have hx' := abs_le.1 hx
        have w2' := abs_le.1 w2
        have y2' := abs_le.1 y2
        exact abs_le.2 ⟨by linarith [u2'.1, hx'.1, w2'.1, y2'.2], by linarith [u2'.2, hx'.2, w2'.2, y2'.1]⟩
      · intro t ht
        obtain ⟨p, _, _, h1, _⟩ := tk t ht
        exact path_goes hv hs h1
    intro b' hb'
    rw [List.mem_append, List.mem_singleton] at hb'
    rcases hb' with h | rfl
    · exact hb b' h
    · exact this

/-- One more frame. -/
theorem run_step (h : Sturdy e P width N k) (he : e.ar = machine) (hB : 16 ≤ B) (hT : B ≤ 2 ^ 100) (hn : n ≤ 2 ^ 20)
    (hm : Mild e s0 fs eos B n) (hs : StartState e s0) (hv : Lively e.g) {fuel : Nat}
    (hfu : 2 ^ 62 * (N + 1) ^ k ≤ fuel) {gs : List (List F32)} {f : List F32} (hg : gs ++ [f] <+: fs)
    (hf : f.length = width) {bs : List Bool} {cs : List (Option (Cutoffs F32 F64))} {d : Dec F32} (hr : Run e gs bs cs d)
    (hd : Sane e P d) : ∃ b c d', process e fuel f d = .ok (b, c, d') ∧ Run e (gs ++ [f]) (bs ++ [b]) (cs ++ [c]) d' ∧
      Sane e P d' := by
  have hg' : gs <+: fs := (List.prefix_append gs [f]).trans hg
  have hb := run_alive he hB hT hn hm hs hv gs bs cs d hg' hr
  obtain ⟨a1, a2⟩ := hr.inv.alive hb
  obtain ⟨b, c, d', h1, h2⟩ := process_ok h (he ▸ machine_frac) hfu hf hd a2 a1
    ((he ▸ machine_mono : MonoLaws e.ar isNan isNan).comparable (fun c hc => by
      obtain ⟨t, ht, rfl⟩ := List.mem_map.mp hc
      obtain ⟨_, _, v, _, _, _, _, h1, _⟩ := run_tokens he hB hT hn hm hs hg' hr t ht
      exact is_nan h1))
  exact ⟨b, c, d', h1, .frame hr h1, h2⟩

/-- Whatever was heard, there is an answer. -/
theorem run_answer (h : Sturdy e P width N k) (he : e.ar = machine) (hB : 16 ≤ B) (hT : B ≤ 2 ^ 100) (hn : n < 100000)
    (hm : Mild e s0 fs eos B n) (hs : StartState e s0) {gs : List (List F32)} (hg : gs <+: fs)
    {bs : List Bool} {cs : List (Option (Cutoffs F32 F64))} {d : Dec F32} (hr : Run e gs bs cs d) (hd : Sane e P d)
    (x : Bool) : ∃ r, bestPath e { d with eos := x } = .ok r := by
  refine bestPath_ok h (d := { d with eos := x }) hd.place fun t ht => ?_
  obtain ⟨_, _, _, _, _, h1, _⟩ := run_tokens he hB hT (by omega) hm hs hg hr t ht
  omega

end Verif.Ieee
