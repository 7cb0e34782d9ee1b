import Verif.IeeeError
import Verif.BeamAliveProps

/-!
# C98: what rounding may cost
-/

namespace Verif.Ieee

open Verif Verif.Fst Verif.Decoder Verif.Decoder.Beam Verif.Ieee.Spec

/-- C98, the machine.  The laws which theorems on the decoder ask of an arithmetic hold of `float` and `double` as IEEE 754
has them, rounding to nearest. -/
theorem C98_machine_laws : DOrder machine ∧ RoundLaws machine ∧ FracLaw machine ∧ NanLaws machine isNan isNan ∧
    MonoLaws machine isNan isNan :=
  ⟨machine_order, machine_round, machine_frac, machine_nan, machine_mono⟩

variable {e : Env F32 F64} {s0 : State} {fs : List (List F32)} {B : Rat}

/-- C98, a path.  If the costs along a path, and their sums, are numbers no larger than `B`, the cost the decoder computes
for it is a number, and off by at most `B / 2 ^ 20` for each arc. -/
theorem C98_path_cost (he : e.ar = machine) (hB : 1 ≤ B) (hT : B ≤ 2 ^ 100) {p : List (GArc F32)} {s : State} {x : Rat}
    (h : Exact e s0 fs B p s x) (hn : p.length ≤ 2 ^ 20) :
    (∃ c, PathTo e s0 fs p s c) ∧ ∀ s' c, PathTo e s0 fs p s' c →
      s' = s ∧ ∃ v, Is c v ∧ |v - x| ≤ p.length * (B / 2 ^ 20) := by
  obtain ⟨c, v, h1, h2, h3⟩ := path_err he hB hT h hn
  refine ⟨⟨c, h1⟩, fun s' c' h' => ?_⟩
  obtain ⟨rfl, rfl⟩ := path_unique h1 h'
  exact ⟨rfl, v, h2, h3⟩

/-- C98, the answer.  Where all costs are numbers no larger than `B` and no path has more than `n` arcs, the words the
decoder returns are those of a path that, without rounding, costs at most `2 * (n + 1) * B / 2 ^ 20` more than any path
that stays inside the beam, less a margin for rounding.  If there is such a path, no frame is refused. -/
theorem C98_answer (he : e.ar = machine) (hB : 16 ≤ B) (hT : B ≤ 2 ^ 100) {n : Nat} (hn : n ≤ 2 ^ 20)
    {bs : List Bool} {cs : List (Option (Cutoffs F32 F64))} {d : Dec F32} (h : Run e fs bs cs d)
    (hs : StartState e s0) (hfew : Few e fs) {eos : Bool} (hm : Mild e s0 fs eos B n)
    {ws : List Int} {w : F32} (ha : bestPath e { d with eos := eos } = .ok (ws, w)) {width : Rat}
    (hw : width + (2 * n + 4) * (B / 2 ^ 20) ≤ 16) (hp : ∃ p x, Stays e s0 fs eos B width p x) :
    (∀ b ∈ bs, b = true) ∧ ∃ q y, Total e s0 fs eos B q y ∧ ws.reverse = wordsOf q ∧
      ∀ p x, Stays e s0 fs eos B width p x → y ≤ x + 2 * (n + 1) * (B / 2 ^ 20) := by
  have hB1 : 1 ≤ B := by linarith
  have ho : DOrder e.ar := he ▸ machine_order
  have hl : NanLaws e.ar isNan isNan := he ▸ machine_nan
  have hmo : MonoLaws e.ar isNan isNan := he ▸ machine_mono
  have kept : ∀ p x, Stays e s0 fs eos B width p x → ∃ y z, Kept e s0 fs eos p y ∧ Is y z ∧
      |z - x| ≤ (n + 1) * (B / 2 ^ 20) := by
    rintro p x ⟨h1, s, u, h2⟩
    obtain ⟨c, hc⟩ := inside_inBeam he hB hT hn hm hw h2
    have hlen := (hm.path p s c hc.path).1
    obtain ⟨y, z, h3, h4, h5⟩ := total_err he hB1 hT h1 (by omega)
    obtain ⟨s', c', g1, g2, g3⟩ := h3
    obtain ⟨rfl, rfl⟩ := path_unique hc.path g1
    refine ⟨y, z, ⟨_, _, hc, g2, g3⟩, h4, h5.trans ?_⟩
    have : ((p.length : Nat) : Rat) ≤ n := by exact_mod_cast hlen
    gcongr
  have hnn := mild_noNan he hB1 hT hn hm
  have hne : NoNanEnd e isNan s0 fs eos := by
    intro p y hy
    rcases mild_end he hB1 hT hn hm hy with rfl | ⟨_, _, _, h2, _⟩
    · rfl
    · exact is_nan h2
  obtain ⟨p0, x0, hp0⟩ := hp
  obtain ⟨y0, z0, k1, k2, _⟩ := kept p0 x0 hp0
  have hlt : ∀ {y : F64} {z : Rat}, Is y z → e.ar.dlt y e.ar.inf = true := by
    rintro _ z ⟨_, rfl⟩
    rw [he]
    rfl
  have hb : ∀ b ∈ bs, b = true := by
    obtain ⟨s, c, m1, m2, _⟩ := id k1
    exact C95_alive ho hl hmo hs hfew hnn (mild_bounded he hB hT hn hm) m1 m2 _ _ _ _ (List.prefix_refl _) h
  refine ⟨hb, ?_⟩
  obtain ⟨q, y, h1, h2, h3, h4⟩ := C95_answer ho hl hmo h hb hs hfew hnn hne ha k1 (hlt k2)
  rcases mild_end he hB1 hT hn hm h1 with rfl | ⟨xq, zq, g1, g2, g3⟩
  · rw [he] at h3; cases h3
  · refine ⟨q, xq, g1, h2, fun p x hpx => ?_⟩
    obtain ⟨yp, zp, m1, m2, m3⟩ := kept p x hpx
    have := h4 p yp m1
    rw [he, dlt_is m2 g2, decide_eq_false_iff_not, not_lt] at this
    have g3' := abs_le.1 g3
    have m3' := abs_le.1 m3
    linarith [g3'.1, m3'.2]

/-- C98, the words.  If a path stays inside the beam, less the margin, and beats every path with other words by more than
rounding may cost, the answer is its words.  Missing of `ExactlyBest`: smaller leads (`C98_rounding_error`), paths outside
the beam (C95) and frames with more than 30000 active tokens. -/
theorem C98_words_partial (he : e.ar = machine) (hB : 16 ≤ B) (hT : B ≤ 2 ^ 100) {n : Nat} (hn : n ≤ 2 ^ 20)
    {bs : List Bool} {cs : List (Option (Cutoffs F32 F64))} {d : Dec F32} (h : Run e fs bs cs d)
    (hs : StartState e s0) (hfew : Few e fs) {eos : Bool} (hm : Mild e s0 fs eos B n)
    {ws : List Int} {w : F32} (ha : bestPath e { d with eos := eos } = .ok (ws, w)) {width : Rat}
    (hw : width + (2 * n + 4) * (B / 2 ^ 20) ≤ 16) {p : List (GArc F32)} {x : Rat}
    (hp : Stays e s0 fs eos B width p x)
    (hlead : ∀ q y, Total e s0 fs eos B q y → wordsOf q ≠ wordsOf p → x + 2 * (n + 1) * (B / 2 ^ 20) < y) :
    ws.reverse = wordsOf p := by
  obtain ⟨_, q, y, h1, h2, h3⟩ := C98_answer he hB hT hn h hs hfew hm ha hw ⟨p, x, hp⟩
  by_contra hc
  rw [h2] at hc
  have := hlead q y h1 hc
  have := h3 p x hp
  linarith

/-! ## A fork -/

/-- Two ways over two frames: costs `u` and `v` with the word 2, `w` and `t` with the word 1; `sc` is the scale. -/
def fork (u v w t sc : F32) : Env F32 F64 :=
  ⟨machine, ⟨0, fun s => if s = 0 then [⟨1, 2, u, 1⟩, ⟨1, 1, w, 2⟩] else if s = 1 then [⟨1, 0, v, 3⟩] else
    if s = 2 then [⟨1, 0, t, 3⟩] else [], fun s => if s = 3 then fit _ 0 else .inf false⟩, none, [0, 0], sc⟩

/-- Two frames with the same log probabilities, of which only the first, `lp`, is ever used. -/
def two (lp : F32) (rest : List F32) : List (List F32) := [lp :: rest, lp :: rest]

variable {u v w t sc lp : F32} {rest : List F32} {U V W T R P : Rat}

theorem two_get {n : Nat} {f : List F32} (h : (two lp rest)[n]? = some f) : f = lp :: rest := by
  match n, h with
  | 0, h => exact (Option.some.inj h).symm
  | 1, h => exact (Option.some.inj h).symm
  | n + 2, h => simp [two] at h

theorem fork_score (hr : Is sc R) (hp : Is lp P) : ScoreOf (fork u v w t sc) (lp :: rest) 1 (R * P) :=
  ⟨1, 0, lp, P, R, rfl, rfl, rfl, hp, hr, rfl⟩

theorem fork_score_eq (hr : Is sc R) (hp : Is lp P) {y : Rat} (h : ScoreOf (fork u v w t sc) (lp :: rest) 1 y) : y = R * P := by
  obtain ⟨ti, pi, l, q, r, h1, h2, h3, h4, h5, rfl⟩ := h
  obtain rfl : ti = 1 := by omega
  obtain rfl : pi = 0 := by
    have : some (0 : Int) = some (pi : Int) := h2
    injection this with this
    omega
  cases Option.some.inj h3
  rw [is_inj h4 hp, is_inj (show Is sc r from h5) hr]

theorem fork_lm {s l s' : Int} {y : Rat} (h : LmCost (fork u v w t sc) s l s' y) : s' = s ∧ y = 0 := by
  cases h with
  | off => exact ⟨rfl, rfl⟩
  | silent h => cases h
  | word h => cases h
  | unknown h => cases h

theorem fork_paths {p : List (GArc F32)} {s : State} {c : F32} (h : PathTo (fork u v w t sc) (0, 0) (two lp rest) p s c) :
    (p = [] ∧ s = (0, 0)) ∨ (p = [⟨1, 2, u, 1⟩] ∧ s = (1, 0)) ∨ (p = [⟨1, 1, w, 2⟩] ∧ s = (2, 0)) ∨
    (p = [⟨1, 2, u, 1⟩, ⟨1, 0, v, 3⟩] ∧ s = (3, 0)) ∨ (p = [⟨1, 1, w, 2⟩, ⟨1, 0, t, 3⟩] ∧ s = (3, 0)) := by
  have noLm : ∀ {s l s' : Int} {k : F64 → F64}, LmMove (fork u v w t sc) s l s' k → s' = s := by
    intro s l s' k h
    cases h with
    | off => rfl
    | silent h => cases h
    | word h => cases h
    | unknown h => cases h
  induction h with
  | nil => exact .inl ⟨rfl, rfl⟩
  | @eps p s c a l k _ h2 h3 h4 ih =>
    exfalso
    rcases ih with ⟨_, rfl⟩ | ⟨_, rfl⟩ | ⟨_, rfl⟩ | ⟨_, rfl⟩ | ⟨_, rfl⟩ <;> simp [fork] at h2
    · rcases h2 with rfl | rfl <;> cases h3
    · subst h2; cases h3
    · subst h2; cases h3
  | @emit p s c v a l k f _ h2 h3 h4 h5 h6 ih =>
    cases noLm h6
    rcases ih with ⟨rfl, rfl⟩ | ⟨rfl, rfl⟩ | ⟨rfl, rfl⟩ | ⟨_, rfl⟩ | ⟨_, rfl⟩ <;> simp [fork] at h2
    · rcases h2 with rfl | rfl
      · exact .inr (.inl ⟨rfl, rfl⟩)
      · exact .inr (.inr (.inl ⟨rfl, rfl⟩))
    · subst h2; exact .inr (.inr (.inr (.inl ⟨rfl, rfl⟩)))
    · subst h2; exact .inr (.inr (.inr (.inr ⟨rfl, rfl⟩)))

theorem fork_exacts (hu : Is u U) (hv : Is v V) (hw : Is w W) (ht : Is t T) (hr : Is sc R) (hp : Is lp P)
    {p : List (GArc F32)} {s : State} {x : Rat} (h : Exact (fork u v w t sc) (0, 0) (two lp rest) B p s x) :
    (p = [] ∧ s = (0, 0) ∧ x = 0) ∨ (p = [⟨1, 2, u, 1⟩] ∧ s = (1, 0) ∧ x = U - R * P) ∨
    (p = [⟨1, 1, w, 2⟩] ∧ s = (2, 0) ∧ x = W - R * P) ∨
    (p = [⟨1, 2, u, 1⟩, ⟨1, 0, v, 3⟩] ∧ s = (3, 0) ∧ x = U + V - 2 * (R * P)) ∨
    (p = [⟨1, 1, w, 2⟩, ⟨1, 0, t, 3⟩] ∧ s = (3, 0) ∧ x = W + T - 2 * (R * P)) := by
  induction h with
  | nil => exact .inl ⟨rfl, rfl, rfl⟩
  | @eps p s x w v a l _ h2 h3 _ h4 _ _ _ ih =>
    exfalso
    rcases ih with ⟨_, rfl, _⟩ | ⟨_, rfl, _⟩ | ⟨_, rfl, _⟩ | ⟨_, rfl, _⟩ | ⟨_, rfl, _⟩ <;> simp [fork] at h2
    · rcases h2 with rfl | rfl <;> cases h3
    · subst h2; cases h3
    · subst h2; cases h3
  | @emit p s x w' y z a l f _ h2 h3 h4 h5 h6 h7 _ _ _ _ ih =>
    obtain ⟨rfl, rfl⟩ := fork_lm h7
    cases two_get h4
    rcases ih with ⟨rfl, rfl, rfl⟩ | ⟨rfl, rfl, rfl⟩ | ⟨rfl, rfl, rfl⟩ | ⟨_, rfl, _⟩ | ⟨_, rfl, _⟩ <;>
      simp [fork] at h2
    · rcases h2 with rfl | rfl
      · rw [fork_score_eq hr hp h5, is_inj h6 hu]
        exact .inr (.inl ⟨rfl, rfl, by ring⟩)
      · rw [fork_score_eq hr hp h5, is_inj h6 hw]
        exact .inr (.inr (.inl ⟨rfl, rfl, by ring⟩))
    · subst h2
      rw [fork_score_eq hr hp h5, is_inj h6 hv]
      exact .inr (.inr (.inr (.inl ⟨rfl, rfl, by ring⟩)))
    · subst h2
      rw [fork_score_eq hr hp h5, is_inj h6 ht]
      exact .inr (.inr (.inr (.inr ⟨rfl, rfl, by ring⟩)))

/-- All costs of the fork are at most an eighth of `B`. -/
structure Small (U V W T Y B : Rat) : Prop where
  u : |U| ≤ B / 8
  v : |V| ≤ B / 8
  w : |W| ≤ B / 8
  t : |T| ≤ B / 8
  y : |Y| ≤ B / 8

theorem fork_first (hu : Is u U) (hv : Is v V) (hr : Is sc R) (hp : Is lp P) (hs : Small U V W T (R * P) B) :
    Exact (fork u v w t sc) (0, 0) (two lp rest) B [⟨1, 2, u, 1⟩] (1, 0) (U - R * P) ∧
    Exact (fork u v w t sc) (0, 0) (two lp rest) B [⟨1, 2, u, 1⟩, ⟨1, 0, v, 3⟩] (3, 0) (U + V - 2 * (R * P)) := by
  obtain ⟨⟨a1, a2⟩, ⟨b1, b2⟩, _, _, ⟨c1, c2⟩⟩ := (⟨abs_le.1 hs.u, abs_le.1 hs.v, hs.w, hs.t, abs_le.1 hs.y⟩ :
    _ ∧ _ ∧ _ ∧ _ ∧ _)
  have h0 : Exact (fork u v w t sc) (0, 0) (two lp rest) B [] (0, 0) 0 := .nil
  have h1 := Exact.emit (a := ⟨1, 2, u, 1⟩) (l := 0) (v := 0) h0 (List.mem_cons_self) Int.one_ne_zero rfl
    (fork_score hr hp) hu (.off rfl) (abs_le.2 ⟨by linarith, by linarith⟩) (abs_le.2 ⟨by linarith, by linarith⟩)
    (by simp; linarith) (abs_le.2 ⟨by linarith, by linarith⟩)
  rw [show 0 + U - R * P + 0 = U - R * P by ring] at h1
  have h2 := Exact.emit (a := ⟨1, 0, v, 3⟩) (l := 0) (v := 0) h1 (List.mem_singleton_self _) Int.one_ne_zero rfl
    (fork_score hr hp) hv (.off rfl) (abs_le.2 ⟨by linarith, by linarith⟩) (abs_le.2 ⟨by linarith, by linarith⟩)
    (by simp; linarith) (abs_le.2 ⟨by linarith, by linarith⟩)
  rw [show U - R * P + V - R * P + 0 = U + V - 2 * (R * P) by ring] at h2
  exact ⟨h1, h2⟩

theorem fork_second (hw : Is w W) (ht : Is t T) (hr : Is sc R) (hp : Is lp P) (hs : Small U V W T (R * P) B) :
    Exact (fork u v w t sc) (0, 0) (two lp rest) B [⟨1, 1, w, 2⟩] (2, 0) (W - R * P) ∧
    Exact (fork u v w t sc) (0, 0) (two lp rest) B [⟨1, 1, w, 2⟩, ⟨1, 0, t, 3⟩] (3, 0) (W + T - 2 * (R * P)) := by
  obtain ⟨⟨a1, a2⟩, ⟨b1, b2⟩, _, _, ⟨c1, c2⟩⟩ := (⟨abs_le.1 hs.w, abs_le.1 hs.t, hs.u, hs.v, abs_le.1 hs.y⟩ :
    _ ∧ _ ∧ _ ∧ _ ∧ _)
  have h0 : Exact (fork u v w t sc) (0, 0) (two lp rest) B [] (0, 0) 0 := .nil
  have h1 := Exact.emit (a := ⟨1, 1, w, 2⟩) (l := 0) (v := 0) h0 (List.mem_cons_of_mem _ (List.mem_singleton_self _))
    Int.one_ne_zero rfl
    (fork_score hr hp) hw (.off rfl) (abs_le.2 ⟨by linarith, by linarith⟩) (abs_le.2 ⟨by linarith, by linarith⟩)
    (by simp; linarith) (abs_le.2 ⟨by linarith, by linarith⟩)
  rw [show 0 + W - R * P + 0 = W - R * P by ring] at h1
  have h2 := Exact.emit (a := ⟨1, 0, t, 3⟩) (l := 0) (v := 0) h1 (List.mem_singleton_self _) Int.one_ne_zero rfl
    (fork_score hr hp) ht (.off rfl) (abs_le.2 ⟨by linarith, by linarith⟩) (abs_le.2 ⟨by linarith, by linarith⟩)
    (by simp; linarith) (abs_le.2 ⟨by linarith, by linarith⟩)
  rw [show W - R * P + T - R * P + 0 = W + T - 2 * (R * P) by ring] at h2
  exact ⟨h1, h2⟩

theorem fork_mild (hu : Is u U) (hv : Is v V) (hw : Is w W) (ht : Is t T) (hr : Is sc R) (hp : Is lp P)
    (hs : Small U V W T (R * P) B) : Mild (fork u v w t sc) (0, 0) (two lp rest) true B 2 := by
  have hB : 0 ≤ B := by
    have := (abs_nonneg U).trans hs.u
    linarith
  have big : ∀ {q : Rat}, |q| ≤ B / 8 → |q| ≤ B := fun h => by linarith
  refine ⟨fun p s c h => ?_, fun p s x a f h1 h2 h3 h4 _ => ?_, fun p s c h => ?_, fun p s c lm z _ h => (by cases h)⟩
  · rcases fork_paths h with ⟨rfl, rfl⟩ | ⟨rfl, rfl⟩ | ⟨rfl, rfl⟩ | ⟨rfl, rfl⟩ | ⟨rfl, rfl⟩
    · exact ⟨by decide, _, .nil⟩
    · exact ⟨by simp, _, (fork_first hu hv hr hp hs).1⟩
    · exact ⟨by simp, _, (fork_second hw ht hr hp hs).1⟩
    · exact ⟨by simp, _, (fork_first hu hv hr hp hs).2⟩
    · exact ⟨by simp, _, (fork_second hw ht hr hp hs).2⟩
  · cases two_get h4
    rcases fork_exacts hu hv hw ht hr hp h1 with ⟨rfl, rfl, rfl⟩ | ⟨rfl, rfl, rfl⟩ | ⟨rfl, rfl, rfl⟩ | ⟨_, rfl, _⟩ |
      ⟨_, rfl, _⟩ <;> simp [fork] at h2
    · rcases h2 with rfl | rfl
      · exact ⟨_, _, fork_score hr hp, hu, big hs.u, big hs.y⟩
      · exact ⟨_, _, fork_score hr hp, hw, big hs.w, big hs.y⟩
    · subst h2; exact ⟨_, _, fork_score hr hp, hv, big hs.v, big hs.y⟩
    · subst h2; exact ⟨_, _, fork_score hr hp, ht, big hs.t, big hs.y⟩
  · by_cases h3 : s.1 = 3
    · right
      refine ⟨0, ⟨rep_zero, ?_⟩, by simpa using hB⟩
      simp only [fork, h3, if_true]
      exact fit_rep rep_zero
    · left
      simp [fork, h3]

theorem fork_start : StartState (fork u v w t sc) (0, 0) := ⟨rfl, .inl ⟨rfl, rfl⟩⟩

theorem fork_few : Few (fork u v w t sc) (two lp rest) :=
  C95_few fork_start [(0, 0), (1, 0), (2, 0), (3, 0)] (by decide) fun p s c h => by
    rcases fork_paths h with ⟨_, rfl⟩ | ⟨_, rfl⟩ | ⟨_, rfl⟩ | ⟨_, rfl⟩ | ⟨_, rfl⟩ <;> decide

theorem fork_final : Is ((fork u v w t sc).g.final 3) 0 := by
  refine ⟨rep_zero, ?_⟩
  simp only [fork, if_true]
  exact fit_rep rep_zero

theorem fork_total (hu : Is u U) (hv : Is v V) (hw : Is w W) (ht : Is t T) (hr : Is sc R) (hp : Is lp P)
    {p : List (GArc F32)} {x : Rat} (h : Total (fork u v w t sc) (0, 0) (two lp rest) true B p x) :
    (p = [⟨1, 2, u, 1⟩, ⟨1, 0, v, 3⟩] ∧ x = U + V - 2 * (R * P)) ∨
    (p = [⟨1, 1, w, 2⟩, ⟨1, 0, t, 3⟩] ∧ x = W + T - 2 * (R * P)) := by
  obtain ⟨s, y, h1, h2, h3⟩ := h
  rcases h3 with ⟨h3, _⟩ | ⟨_, _, z, h4, _, rfl⟩ | ⟨_, _, _, _, _, h3, _⟩
  · cases h3
  · rcases fork_exacts hu hv hw ht hr hp h1 with ⟨rfl, _, _⟩ | ⟨rfl, _, _⟩ | ⟨rfl, _, _⟩ | ⟨rfl, rfl, rfl⟩ |
      ⟨rfl, rfl, rfl⟩
    · cases h2
    · cases h2
    · cases h2
    · left
      rw [is_inj h4 fork_final]
      exact ⟨rfl, by ring⟩
    · right
      rw [is_inj h4 fork_final]
      exact ⟨rfl, by ring⟩
  · cases h3

theorem fork_total_second (hw : Is w W) (ht : Is t T) (hr : Is sc R) (hp : Is lp P) (hs : Small U V W T (R * P) B) :
    Total (fork u v w t sc) (0, 0) (two lp rest) true B [⟨1, 1, w, 2⟩, ⟨1, 0, t, 3⟩] (W + T - 2 * (R * P)) :=
  ⟨_, _, (fork_second hw ht hr hp hs).2, rfl, .inr (.inl ⟨rfl, rfl, 0, fork_final,
    (by have := (abs_nonneg U).trans hs.u; simp; linarith), by ring⟩)⟩

/-! ## Rounding changes an answer -/

/-- A use of the decoder: which frames it took, and what it answers at the end. -/
def answer (e : Env F32 F64) (fs : List (List F32)) : Exec (List Bool × List Int) := do
  let d ← initDecoder e 5 fresh
  let (bs, _, d) ← feed e 5 fs d
  let (ws, _) ← bestPath e { d with eos := true }
  .ok (bs, ws)

theorem answer_run {bs : List Bool} {ws : List Int} (h : answer e fs = .ok (bs, ws)) :
    ∃ cs d w, Run e fs bs cs d ∧ bestPath e { d with eos := true } = .ok (ws, w) := by
  obtain ⟨d, h1, h⟩ := bind_ok h
  obtain ⟨⟨bs', cs, d'⟩, h2, h⟩ := bind_ok h
  obtain ⟨⟨ws', w⟩, h3, h⟩ := bind_ok h
  cases h
  exact ⟨cs, d', w, feed_run (.init h1) h2, h3⟩

theorem fit_eq {q r : Rat} (h : Rep binary32 r) (e : round binary32 q = r) : fit binary32 q = .num r h := by
  subst e
  unfold fit
  rw [dif_pos h.2]

/-- `2 ^ 24` as a `float`. -/
def large : F32 := fit _ 16777216

/-- 1 as a `float`. -/
def one : F32 := fit _ 1

/-- 0 as a `float`. -/
def none' : F32 := fit _ 0

/-- The number nearest to a tenth. -/
def tenth : F32 := fit _ (1 / 10)

theorem large_is : Is large 16777216 := by
  have : Rep binary32 16777216 := ⟨⟨1, 24, by decide, by decide, by simp [pow2]⟩, by decide +kernel⟩
  exact ⟨this, fit_rep this⟩

theorem one_is : Is one 1 := by
  have : Rep binary32 1 := ⟨⟨1, 0, by decide, by decide, by simp [pow2]⟩, by decide +kernel⟩
  exact ⟨this, fit_rep this⟩

theorem none_is : Is none' 0 := ⟨rep_zero, fit_rep rep_zero⟩

theorem tenth_is : Is tenth (13421773 / 134217728) := by
  have : Rep binary32 (13421773 / 134217728) :=
    ⟨⟨13421773, -27, by decide, by decide, by decide +kernel⟩, by decide +kernel⟩
  exact ⟨this, fit_eq this (by decide +kernel)⟩

/-- C98 fails with no margin: of two paths, of costs `2 ^ 24 + 1` and `2 ^ 24`, the decoder takes the first, since the two
sums are the same `float`. -/
theorem C98_rounding_error : ¬ ExactlyBest (fork large one large none' one) := by
  intro h
  have ha : answer (fork large one large none' one) (two none' []) = .ok ([true, true], [2]) := by decide +kernel
  obtain ⟨cs, d, w, hr, hb⟩ := answer_run ha
  have hs : Small 16777216 1 16777216 0 (1 * 0) (2 ^ 28) := by constructor <;> norm_num [abs_le]
  obtain ⟨q, x, h1, h2, h3⟩ := h (0, 0) _ _ _ d true [2] w (2 ^ 28) 2 fork_start hr (by decide)
    (fork_mild large_is one_is large_is none_is one_is none_is hs) hb
  have := h3 _ _ (fork_total_second large_is none_is one_is none_is hs)
  rcases fork_total large_is one_is large_is none_is one_is none_is h1 with ⟨_, rfl⟩ | ⟨rfl, _⟩
  · norm_num at this
  · revert h2; decide

/-! ## A case of the theorems -/

/-- The second way of a fork stays inside a beam that is wide enough for all there is. -/
theorem fork_inside (hu : Is u U) (hv : Is v V) (hw : Is w W) (ht : Is t T) (hr : Is sc R) (hp : Is lp P)
    (hs : Small U V W T (R * P) B) {width : Rat} (hU : 0 ≤ U) (hV : 0 ≤ V) (hW : 0 ≤ W) (hT : 0 ≤ T)
    (hwd : W + T + 5 * |R * P| ≤ width) :
    Inside (fork u v w t sc) (0, 0) (two lp rest) B width [⟨1, 1, w, 2⟩, ⟨1, 0, t, 3⟩] (3, 0) (W + T - 2 * (R * P)) := by
  have y1 := le_abs_self (R * P)
  have y2 := neg_abs_le (R * P)
  have low : ∀ {q s x}, Exact (fork u v w t sc) (0, 0) (two lp rest) B q s x → -(2 * |R * P|) ≤ x := by
    intro q s x h
    rcases fork_exacts hu hv hw ht hr hp h with ⟨_, _, rfl⟩ | ⟨_, _, rfl⟩ | ⟨_, _, rfl⟩ | ⟨_, _, rfl⟩ | ⟨_, _, rfl⟩ <;>
      linarith
  have arcs : ∀ {s a}, a ∈ (fork u v w t sc).g.arcs s → ∀ {w'}, Is a.weight w' → a.ilabel = 1 ∧ 0 ≤ w' := by
    intro s a h w' hw'
    have : a = ⟨1, 2, u, 1⟩ ∨ a = ⟨1, 1, w, 2⟩ ∨ a = ⟨1, 0, v, 3⟩ ∨ a = ⟨1, 0, t, 3⟩ := by
      simp only [fork] at h
      split at h
      · simp at h; tauto
      · split at h
        · simp at h; tauto
        · split at h
          · simp at h; tauto
          · cases h
    rcases this with rfl | rfl | rfl | rfl
    · rw [is_inj hw' hu]; exact ⟨rfl, hU⟩
    · rw [is_inj hw' hw]; exact ⟨rfl, hW⟩
    · rw [is_inj hw' hv]; exact ⟨rfl, hV⟩
    · rw [is_inj hw' ht]; exact ⟨rfl, hT⟩
  have reach : ∀ {n o}, Reaches (fork u v w t sc) (0, 0) (two lp rest) B n o → -(3 * |R * P|) ≤ o := by
    rintro n o ⟨p, s, x, a, f, w', y, h1, rfl, h2, h3, h4, h5, h6, rfl⟩
    obtain ⟨g1, g2⟩ := arcs h2 h6
    cases two_get h4
    rw [g1] at h5
    rw [fork_score_eq hr hp h5]
    have := low h1
    linarith
  obtain ⟨⟨a1, a2⟩, ⟨b1, b2⟩, _, _, ⟨c1, c2⟩⟩ := (⟨abs_le.1 hs.w, abs_le.1 hs.t, hs.u, hs.v, abs_le.1 hs.y⟩ :
    _ ∧ _ ∧ _ ∧ _ ∧ _)
  have h0 : Inside (fork u v w t sc) (0, 0) (two lp rest) B width [] (0, 0) 0 := .nil
  have h1 := Inside.emit (a := ⟨1, 1, w, 2⟩) (l := 0) (v := 0) h0 (List.mem_cons_of_mem _ (List.mem_singleton_self _))
    Int.one_ne_zero rfl
    (fork_score hr hp) hw (.off rfl) (abs_le.2 ⟨by linarith, by linarith⟩) (abs_le.2 ⟨by linarith, by linarith⟩)
    (by simp; linarith) (abs_le.2 ⟨by linarith, by linarith⟩)
    (fun q t x hq _ => by have := low hq; linarith) (fun o ho => by have := reach ho; linarith)
  rw [show 0 + W - R * P + 0 = W - R * P by ring] at h1
  have h2 := Inside.emit (a := ⟨1, 0, t, 3⟩) (l := 0) (v := 0) h1 (List.mem_singleton_self _) Int.one_ne_zero rfl
    (fork_score hr hp) ht (.off rfl) (abs_le.2 ⟨by linarith, by linarith⟩) (abs_le.2 ⟨by linarith, by linarith⟩)
    (by simp; linarith) (abs_le.2 ⟨by linarith, by linarith⟩)
    (fun q t x hq _ => by have := low hq; linarith) (fun o ho => by have := reach ho; linarith)
  rw [show W - R * P + T - R * P + 0 = W + T - 2 * (R * P) by ring] at h2
  exact h2

/-- Log probability of the example: the number nearest to minus a tenth. -/
def lowish : F32 := fit _ (-1 / 10)

theorem lowish_is : Is lowish (-13421773 / 134217728) := by
  have : Rep binary32 (-13421773 / 134217728) :=
    ⟨⟨-13421773, -27, by decide, by decide, by decide +kernel⟩, by decide +kernel⟩
  exact ⟨this, fit_eq this (by decide +kernel)⟩

theorem small_tenth : Small 0 1 (13421773 / 134217728) (13421773 / 134217728)
    (13421773 / 134217728 * (-13421773 / 134217728)) 16 := by
  constructor <;> norm_num [abs_le]

-- costs that round: a tenth and a tenth against 0 and 1; the words are those of the second way
example : ∃ bs cs d ws w, Run (fork none' one tenth tenth tenth) (two lowish []) bs cs d ∧ (∀ b ∈ bs, b = true) ∧
    Mild (fork none' one tenth tenth tenth) (0, 0) (two lowish []) true 16 2 ∧
    bestPath (fork none' one tenth tenth tenth) { d with eos := true } = .ok (ws, w) ∧ ws.reverse = [1] := by
  have ha : answer (fork none' one tenth tenth tenth) (two lowish []) = .ok ([true, true], [1]) := by decide +kernel
  obtain ⟨cs, d, w, hr, hb⟩ := answer_run ha
  have hm := fork_mild (rest := []) none_is one_is tenth_is tenth_is tenth_is lowish_is small_tenth
  refine ⟨_, cs, d, [1], w, hr, by decide, hm, hb, ?_⟩
  refine (C98_words_partial rfl (by norm_num) (by norm_num) (n := 2) (by norm_num) hr fork_start fork_few hm
    hb (width := 15) (by norm_num)
    ⟨fork_total_second tenth_is tenth_is tenth_is lowish_is small_tenth, _, _,
      fork_inside none_is one_is tenth_is tenth_is tenth_is lowish_is small_tenth (by norm_num) (by norm_num)
        (by norm_num) (by norm_num) (by norm_num [abs_of_neg])⟩ ?_).trans rfl
  intro q y hq hne
  rcases fork_total none_is one_is tenth_is tenth_is tenth_is lowish_is hq with ⟨rfl, rfl⟩ | ⟨rfl, rfl⟩
  · norm_num
  · exact absurd rfl hne

-- the sum of the second way rounds, and the bound covers it
example : ∀ s c, PathTo (fork none' one tenth tenth tenth) (0, 0) (two lowish [])
    [⟨1, 1, tenth, 2⟩, ⟨1, 0, tenth, 3⟩] s c → s = (3, 0) ∧ ∃ v, Is c v ∧
      |v - (13421773 / 134217728 + 13421773 / 134217728 - 2 * (13421773 / 134217728 * (-13421773 / 134217728)))| ≤
        2 * (16 / 2 ^ 20) :=
  (C98_path_cost (e := fork none' one tenth tenth tenth) rfl (by norm_num) (by norm_num)
    (fork_second tenth_is tenth_is tenth_is lowish_is small_tenth).2 (by simp)).2

end Verif.Ieee
