import Verif.DecoderPaths

/-!
# The random sample of `GetCutoff` is never empty, and no frame hits undefined behaviour
-/

set_option linter.unusedSectionVars false

namespace Verif.Decoder

open Verif Verif.Fst

variable {F D : Type}

/-- `k` steps of a generator. -/
def steps (g : Nat → Nat) : Nat → Nat → Nat
  | 0, x => x
  | k + 1, x => steps g k (g x)

theorem steps_zero (g : Nat → Nat) (x : Nat) : steps g 0 x = x := rfl

theorem steps_succ (g : Nat → Nat) (k x : Nat) : steps g (k + 1) x = steps g k (g x) := rfl

theorem steps_add (g : Nat → Nat) (m n x : Nat) : steps g (m + n) x = steps g n (steps g m x) := by
  induction m generalizing x with
  | zero => rw [Nat.zero_add, steps_zero]
  | succ m ih => rw [Nat.add_right_comm, steps_succ, steps_succ, ih]

/-- The low 16 bits after `k` steps are an affine function of the seed. -/
def Aff (k a c : Nat) : Prop := ∀ x, steps lcg k x % 65536 = (a * x + c) % 65536

theorem lcg_mod (x : Nat) : lcg x % 65536 = (25214903917 * x + 11) % 65536 := by
  unfold lcg
  rw [Nat.mod_mod_of_dvd _ (by decide), Nat.mul_comm]

theorem mul_mod_add (a y c M : Nat) : (a * (y % M) + c) % M = (a * y + c) % M := by
  rw [Nat.add_mod, Nat.mul_mod, Nat.mod_mod, ← Nat.mul_mod, ← Nat.add_mod]

theorem Aff.comp {m n a c a' c' : Nat} (h : Aff m a c) (h' : Aff n a' c') :
    Aff (m + n) (a' * a % 65536) ((a' * c + c') % 65536) := by
  intro x
  rw [steps_add, h', ← mul_mod_add, h, mul_mod_add]
  have e2 : (a' * a % 65536 * x + (a' * c + c') % 65536) % 65536 = (a' * a * x + (a' * c + c')) % 65536 := by
    rw [Nat.mul_comm _ x, mul_mod_add, Nat.mul_comm x, Nat.add_mod_mod]
  rw [e2]
  congr 1
  rw [Nat.mul_add, Nat.mul_assoc, Nat.add_assoc]

theorem aff_one : Aff 1 25214903917 11 := by
  intro x
  rw [show (1 : Nat) = 0 + 1 from rfl, steps_succ, steps_zero]
  exact lcg_mod x

theorem Aff.comp' {m n a c a' c' k a'' c'' : Nat} (h : Aff m a c) (h' : Aff n a' c') (hk : k = m + n)
    (ha : a'' = a' * a % 65536) (hc : c'' = (a' * c + c') % 65536) : Aff k a'' c'' := by
  subst hk ha hc; exact h.comp h'

theorem low_53014 : steps lcg 53014 802 % 65536 = 0 := by
  have p0 : Aff 1 58989 11 := fun x => by
    rw [aff_one, Nat.mul_comm, Nat.mul_comm 58989, ← mul_mod_add x 25214903917]
  have p1 : Aff 2 2665 59066 := p0.comp' p0 rfl rfl rfl
  have p2 : Aff 4 24337 52484 := p1.comp' p1 rfl rfl rfl
  have p3 : Aff 8 40737 58952 := p2.comp' p2 rfl rfl rfl
  have p4 : Aff 16 577 19856 := p3.comp' p3 rfl rfl rfl
  have p5 : Aff 32 5249 7968 := p4.comp' p4 rfl rfl rfl
  have p6 : Aff 64 26881 20032 := p5.comp' p5 rfl rfl rfl
  have p7 : Aff 128 53761 56448 := p6.comp' p6 rfl rfl rfl
  have p8 : Aff 256 41985 47360 := p7.comp' p7 rfl rfl rfl
  have p9 : Aff 512 18433 29184 := p8.comp' p8 rfl rfl rfl
  have p10 : Aff 1024 36865 58368 := p9.comp' p9 rfl rfl rfl
  have p11 : Aff 2048 8193 51200 := p10.comp' p10 rfl rfl rfl
  have p12 : Aff 4096 16385 36864 := p11.comp' p11 rfl rfl rfl
  have p13 : Aff 8192 32769 8192 := p12.comp' p12 rfl rfl rfl
  have p14 : Aff 16384 1 16384 := p13.comp' p13 rfl rfl rfl
  have p15 : Aff 32768 1 32768 := p14.comp' p14 rfl rfl rfl
  have q2 : Aff 6 43001 9566 := p1.comp' p2 rfl rfl rfl
  have q4 : Aff 22 38969 34414 := q2.comp' p4 rfl rfl rfl
  have q8 : Aff 278 7225 46958 := q4.comp' p8 rfl rfl rfl
  have q9 : Aff 790 9273 6510 := q8.comp' p9 rfl rfl rfl
  have q10 : Aff 1814 13369 56686 := q9.comp' p10 rfl rfl rfl
  have q11 : Aff 3862 21561 25966 := q10.comp' p11 rfl rfl rfl
  have q14 : Aff 20246 21561 42350 := q11.comp' p14 rfl rfl rfl
  have q15 : Aff 53014 21561 9582 := q14.comp' p15 rfl rfl rfl
  rw [q15 802]

theorem low_133 : steps lcg 133 802 % 65536 = 89 := by decide +kernel

theorem cutoffLoop_ne {ar : Arith F D} {n : Nat} :
    ∀ {l : List (Token F)} {x : Nat} {cs cs' : List F} {c0 c : D} {t0 t : Token F},
      cutoffLoop ar n l x cs c0 t0 = (cs', c, t) → cs ≠ [] → cs' ≠ []
  | [], x, cs, cs', c0, c, t0, t, h, hn => by cases h; exact hn
  | u :: l, x, cs, cs', c0, c, t0, t, h, hn => by
    unfold cutoffLoop at h
    simp only at h
    have : (if sampled ar n (lcg x) then cs ++ [u.cost] else cs) ≠ [] := by
      split <;> simp [hn]
    split at h <;> exact cutoffLoop_ne h this

theorem cutoffLoop_sample {ar : Arith F D} {n : Nat} :
    ∀ {l : List (Token F)} {x : Nat} {cs cs' : List F} {c0 c : D} {t0 t : Token F} (j : Nat),
      cutoffLoop ar n l x cs c0 t0 = (cs', c, t) → j < l.length →
      sampled ar n (steps lcg (j + 1) x) = true → cs' ≠ []
  | [], _, _, _, _, _, _, _, _, _, hj, _ => by simp at hj
  | u :: l, x, cs, cs', c0, c, t0, t, j, h, hj, hs => by
    unfold cutoffLoop at h
    simp only at h
    cases j with
    | zero =>
      have : (if sampled ar n (lcg x) then cs ++ [u.cost] else cs) ≠ [] := by
        rw [steps_succ, steps_zero] at hs
        simp [hs]
      split at h <;> exact cutoffLoop_ne h this
    | succ j =>
      have hj : j < l.length := by simpa using hj
      rw [steps_succ] at hs
      split at h <;> exact cutoffLoop_sample j h hj hs

theorem cutoffLoop_costs {ar : Arith F D} {n : Nat} :
    ∀ {l : List (Token F)} {x : Nat} {cs cs' : List F} {c0 c : D} {t0 t : Token F},
      cutoffLoop ar n l x cs c0 t0 = (cs', c, t) → ∀ y ∈ cs', y ∈ cs ∨ ∃ u ∈ l, y = u.cost
  | [], x, cs, cs', c0, c, t0, t, h => by cases h; exact fun y hy => .inl hy
  | u :: l, x, cs, cs', c0, c, t0, t, h => by
    unfold cutoffLoop at h
    simp only at h
    intro y hy
    have key : y ∈ (if sampled ar n (lcg x) then cs ++ [u.cost] else cs) ∨ ∃ u ∈ l, y = u.cost := by
      split at h <;> exact cutoffLoop_costs h y hy
    rcases key with h | ⟨v, hv, h⟩
    · split at h
      · rcases List.mem_append.1 h with h | h
        · exact .inl h
        · exact .inr ⟨u, by simp, by simpa using h⟩
      · exact .inl h
    · exact .inr ⟨v, by simp [hv], h⟩

/-- With more tokens than the beam size some cost is sampled. -/
theorem sample_nonempty {ar : Arith F D} (hf : FracLaw ar) {l : List (Token F)} (hn : 30000 < l.length)
    (hs : l.length < 2 ^ 64) {cs' : List F} {c0 c : D} {t0 t : Token F}
    (h : cutoffLoop ar l.length l 802 [] c0 t0 = (cs', c, t)) : cs' ≠ [] := by
  by_cases hl : l.length < 60000
  · refine cutoffLoop_sample 132 h (by omega) ?_
    unfold sampled
    rw [low_133]
    exact hf _ _ _ _ (by decide) (by decide) (by decide) (by decide) (by omega) hs (by omega)
  · refine cutoffLoop_sample 53013 h (by omega) ?_
    unfold sampled
    rw [low_53014]
    exact hf _ _ _ _ (by decide) (by decide) (by decide) (by decide) (by omega) hs (by omega)

theorem cutoff_index_lt {k n : Nat} (hk : 0 < k) (hn : 30000 < n) : k * 30000 / n < k := by
  apply Nat.div_lt_of_lt_mul
  rw [Nat.mul_comm n k]
  exact Nat.mul_lt_mul_of_pos_left hn hk

theorem weakOrder_iff {ar : Arith F D} {cs : List F} : weakOrder ar cs = true ↔ Comparable ar cs := by
  unfold weakOrder
  simp only [List.all_eq_true, Bool.and_eq_true]
  constructor
  · intro h
    refine ⟨fun a ha => by simpa using (h a ha).1, fun a ha b hb c hc h1 h2 => ?_, fun a ha b hb c hc h1 h2 h3 h4 => ?_⟩
    · simpa [h1, h2] using ((h a ha).2 b hb c hc).1
    · simpa [h1, h2, h3, h4] using ((h a ha).2 b hb c hc).2
  · intro h a ha
    refine ⟨by simpa using h.irrefl a ha, fun b hb c hc => ⟨?_, ?_⟩⟩
    · cases h1 : ar.flt a b <;> cases h2 : ar.flt b c <;> simp_all
      exact h.trans a ha b hb c hc h1 h2
    · cases h1 : ar.flt a b <;> cases h2 : ar.flt b a <;> cases h3 : ar.flt b c <;> cases h4 : ar.flt c b <;> simp_all
      exact h.tie a ha b hb c hc h1 h2 h3 h4

theorem Comparable.mono {ar : Arith F D} {cs cs' : List F} (h : Comparable ar cs) (hs : ∀ c ∈ cs', c ∈ cs) :
    Comparable ar cs' :=
  ⟨fun a ha => h.irrefl a (hs a ha), fun a ha b hb c hc => h.trans a (hs a ha) b (hs b hb) c (hs c hc),
    fun a ha b hb c hc => h.tie a (hs a ha) b (hs b hb) c (hs c hc)⟩

theorem MonoLaws.comparable {ar : Arith F D} {fn : F → Bool} {dn : D → Bool} (h : MonoLaws ar fn dn) {cs : List F}
    (hn : ∀ c ∈ cs, fn c = false) : Comparable ar cs := by
  refine ⟨fun a _ => ?_, fun a _ b _ c _ h1 h2 => h.ftrans h1 h2, fun a _ b hb c _ h1 h2 h3 h4 => h.fle (hn b hb) h3 h1⟩
  cases hc : ar.flt a a with
  | false => rfl
  | true => rw [h.fasymm hc] at hc; cases hc

theorem maxActive_ok {ar : Arith F D} {n : Nat} {cs : List F} (h : 30000 < n → cs ≠ []) (hc : Comparable ar cs) :
    ∃ m, maxActive ar n cs = .ok m := by
  unfold maxActive
  split
  · rename_i hn
    rw [if_neg (by rw [weakOrder_iff.2 hc]; decide)]
    have hk : 0 < cs.length := List.length_pos_iff.2 (h hn)
    have hlt := cutoff_index_lt hk hn
    rw [← length_sortCosts (ar := ar)] at hlt
    rw [aget_nat (List.getElem?_eq_getElem (by rw [length_sortCosts] at hlt ⊢; exact hlt)), ok_bind]
    exact ⟨_, rfl⟩
  · exact ⟨none, rfl⟩

/-- The cutoff of a non-empty beam is always computed. -/
theorem getCutoff_total {ar : Arith F D} (hf : FracLaw ar) {l : List (Token F)} (hl : l ≠ [])
    (hs : l.length < 2 ^ 64) (hcm : Comparable ar (l.map (·.cost))) :
    ∃ r, getCutoff ar l = .ok r := by
  cases l with
  | nil => exact absurd rfl hl
  | cons t0 l =>
    unfold getCutoff
    rcases hc : cutoffLoop ar (t0 :: l).length (t0 :: l) 802 [] ar.inf t0 with ⟨cs, best, bt⟩
    simp only [hc]
    split
    · exact ⟨_, rfl⟩
    · obtain ⟨m, hm⟩ := maxActive_ok (ar := ar) (fun hn => sample_nonempty hf hn hs hc)
        (hcm.mono fun y hy => by
          rcases cutoffLoop_costs hc y hy with h | ⟨u, hu, rfl⟩
          · simp at h
          · exact List.mem_map_of_mem hu)
      rw [hm, ok_bind]
      exact ⟨_, rfl⟩

/-! ## Absence of undefined behaviour -/

/-- The outcome is not undefined behaviour. -/
def NoUb {α : Type} (x : Exec α) : Prop := x ≠ .error .ub

theorem NoUb.ok {α : Type} (a : α) : NoUb (.ok a : Exec α) := by simp [NoUb]

theorem NoUb.bind {α β : Type} {x : Exec α} {f : α → Exec β} (hx : NoUb x) (hf : ∀ a, x = .ok a → NoUb (f a)) :
    NoUb (x >>= f) := by
  cases x with
  | error e => exact fun h => hx (by cases h; rfl)
  | ok a => exact hf a rfl

theorem NoUb.cassert (b : Bool) : NoUb (Verif.cassert b) := by
  cases b <;> simp [NoUb]

theorem foldlM_noUb {α β : Type} {P : β → Prop} {f : β → α → Exec β} :
    ∀ {l : List α} {b : β}, (∀ b a b', a ∈ l → P b → f b a = .ok b' → P b') →
      (∀ b a, a ∈ l → P b → NoUb (f b a)) → P b → NoUb (l.foldlM f b)
  | [], b, _, _, _ => NoUb.ok b
  | a :: l, b, hs, hn, hb => by
    rw [List.foldlM_cons]
    refine (hn b a (by simp) hb).bind fun b1 h1 => ?_
    exact foldlM_noUb (fun b a b' ha => hs b a b' (by simp [ha])) (fun b a ha => hn b a (by simp [ha]))
      (hs _ _ _ (by simp) hb h1)

/-- The token is in a language model state of `P`. -/
def InP (P : Int → Prop) (e : Env F D) (t : Token F) : Prop := e.lm ≠ none → P t.state.2

theorem Tame.move {e : Env F D} {P : Int → Prop} (h : Tame e P) {s l k} {g : Int} {a : GArc F} (ha : a ∈ e.g.arcs g)
    (hs : e.lm ≠ none → P s) (hm : LmMove e s a.olabel l k) : e.lm ≠ none → P l := by
  intro hn
  generalize hl : a.olabel = w at hm
  cases hm with
  | off h0 => exact absurd h0 hn
  | silent h0 => exact hs hn
  | word h0 h1 h2 => exact (h.answer _ h0 _ (hs hn) g a ha (by rw [hl]; exact h1)).2 _ (by rw [hl]; exact h2)
  | unknown h0 h1 h2 => exact hs hn

theorem Tame.eps {e : Env F D} {P : Int → Prop} (h : Tame e P) : EpsClosed e (InP P e) :=
  fun _ _ _ _ hq ha _ hm => h.move ha hq hm

theorem Tame.emit {e : Env F D} {P : Int → Prop} (h : Tame e P) (f : List F) : EmitClosed e f (InP P e) (InP P e) :=
  fun _ _ _ _ _ hq ha _ _ hm => h.move ha hq hm

theorem Tame.run {e : Env F D} {P : Int → Prop} (hT : Tame e P) {fs : List (List F)} {bs : List Bool}
    {cs : List (Option (Cutoffs F D))} {d : Dec F} (h : Run e fs bs cs d) : ∀ t ∈ d.toks, InP P e t := by
  induction h with
  | init h =>
    refine (initDecoder_inv hT.eps ?_ h).2.1
    rintro s ⟨_, hs⟩ hn
    rcases hs with ⟨h0, _⟩ | ⟨lm, h0, h1⟩
    · exact absurd h0 hn
    · exact hT.start lm _ h0 h1
  | frame hr h ih => exact (process_inv (hT.emit _) hT.eps hr.inv.prev ih h).2.1

theorem addLm_noUb {e : Env F D} {P : Int → Prop} (h : Tame e P) {s : Int} (hs : e.lm ≠ none → P s) {g : Int}
    {a : GArc F} (ha : a ∈ e.g.arcs g) (t : D) : NoUb (addLm e s a.olabel t) := by
  unfold addLm
  split
  · exact .ok _
  · rename_i lm hm
    refine NoUb.bind ?_ fun _ _ => .ok _
    unfold propagateLm
    split
    · rename_i hl
      refine NoUb.bind (h.answer lm hm s (hs (by rw [hm]; simp)) g a ha hl).1 fun r _ => ?_
      cases r <;> exact .ok _
    · exact .ok _

theorem vget_noUb {α : Type} (v : List α) {i : Int} (h0 : 0 ≤ i) : NoUb (vget v i) := by
  unfold vget
  refine (NoUb.cassert _).bind fun _ h => ?_
  have h := of_decide_eq_true (cassert_ok h)
  have hi : i.toNat < v.length := by omega
  rw [show i = ((i.toNat : Nat) : Int) by omega, aget_nat (List.getElem?_eq_getElem hi)]
  exact .ok _

theorem emitTotal_noUb {e : Env F D} {P : Int → Prop} (h : Tame e P) (f : List F) (c : F) {g : Int} {a : GArc F}
    (ha : a ∈ e.g.arcs g) : NoUb (emitTotal e f c a) := by
  unfold emitTotal logLikelihood
  refine NoUb.bind ?_ fun _ _ => .ok _
  refine (vget_noUb _ (h.labels g a ha)).bind fun p hp => ?_
  obtain ⟨n, _, hn⟩ := vget_iff.1 hp
  exact (vget_noUb _ (h.pdfs p (List.mem_of_getElem? hn))).bind fun _ _ => .ok _

theorem insertTok_noUb {e : Env F D} {d : Dec F} (h : IndexExact d) (st : State) (label : Int)
    (hist : List Int) (cost : F) : NoUb (insertTok e d st label hist cost) := by
  obtain ⟨i, d', h1, _⟩ := insertTok_spec e h st label hist cost
  rw [h1]; exact .ok _

theorem nonemitArc_noUb {e : Env F D} {P : Int → Prop} (hT : Tame e P) {d : Dec F} {stack : List State} {i : Nat}
    {cutoff : D} {g : Int} {a : GArc F} (ha : a ∈ e.g.arcs g) (hx : IndexExact d)
    (hi : ∃ t, d.toks[i]? = some t ∧ InP P e t) : NoUb (nonemitArc e i cutoff (d, stack) a) := by
  obtain ⟨t, ht, hp⟩ := hi
  unfold nonemitArc
  simp only
  split
  · exact .ok _
  · simp only [ht]
    refine (addLm_noUb hT hp ha _).bind fun r _ => ?_
    split
    · exact .ok _
    · exact (insertTok_noUb hx _ _ _ _).bind fun _ _ => .ok _

theorem nonemitLoop_noUb {e : Env F D} {P : Int → Prop} (hT : Tame e P) {cutoff : D} {d0 : Dec F} :
    ∀ {fuel : Nat} {d : Dec F} {stack : List State}, Eps (InP P e) d0 d stack →
      NoUb (nonemitLoop e cutoff fuel d stack)
  | fuel, d, [], _ => by cases fuel <;> exact .ok _
  | 0, _, _ :: _, _ => by simp [NoUb, nonemitLoop]
  | fuel + 1, d, st :: stack, hE => by
    unfold nonemitLoop
    cases hl : d.idx.lookup st with
    | none => simp [NoUb]
    | some i =>
      have hi := (hE.exact st i).1 hl
      have hE' : Eps (InP P e) d0 d stack :=
        ⟨hE.exact, hE.all, hE.frame, fun s hs => hE.stack s (by simp [hs])⟩
      refine NoUb.bind ?_ fun r hr => ?_
      · refine foldlM_noUb
          (P := fun b : Dec F × List State => Eps (InP P e) d0 b.1 b.2 ∧ ∃ t, b.1.toks[i]? = some t ∧ t.state = st)
          (fun b a b' ha hb hf => nonemitArc_inv hT.eps ha hb.2 hb.1 hf) ?_ ⟨hE', hi⟩
        rintro ⟨d1, st1⟩ a ha ⟨h1, t, ht, _⟩
        exact nonemitArc_noUb hT ha h1.exact ⟨t, ht, h1.all t (List.mem_of_getElem? ht)⟩
      · exact nonemitLoop_noUb hT (nonemitArcs_inv hT.eps hi hE' hr)

theorem processNonemitting_noUb {e : Env F D} {P : Int → Prop} (hT : Tame e P) {cutoff : D} {fuel : Nat} {d : Dec F}
    (hx : IndexExact d) (hp : ∀ t ∈ d.toks, InP P e t) : NoUb (processNonemitting e cutoff fuel d) := by
  unfold processNonemitting
  refine (NoUb.cassert _).bind fun _ _ => ?_
  exact nonemitLoop_noUb hT (d0 := d) ⟨hx, hp, Frame.refl d, by
    intro s hs
    simp only [List.mem_reverse, List.mem_map] at hs
    exact hs⟩

theorem emitArc_noUb {e : Env F D} {P : Int → Prop} (hT : Tame e P) {f : List F} {ab : F} {t : Token F}
    (ht : InP P e t) {b : D × Dec F} {g : Int} {a : GArc F} (ha : a ∈ e.g.arcs g)
    (hx : IndexExact b.2) : NoUb (emitArc e f ab t b a) := by
  obtain ⟨nwc, d⟩ := b
  unfold emitArc
  simp only
  split
  · exact .ok _
  · refine (emitTotal_noUb hT _ _ ha).bind fun tot _ => ?_
    split
    · exact .ok _
    · refine (addLm_noUb hT ht ha _).bind fun r _ => ?_
      refine (NoUb.cassert _).bind fun _ _ => ?_
      exact (insertTok_noUb hx _ _ _ _).bind fun _ _ => .ok _

theorem processEmitting_noUb {e : Env F D} {P : Int → Prop} (hT : Tame e P) (hfr : FracLaw e.ar) {f : List F}
    {d : Dec F} (hprev : d.prev = []) (hne : d.toks ≠ []) (hs : d.toks.length < 2 ^ 64) (hcm : Comparable e.ar (d.toks.map (·.cost)))
    (hp : ∀ t ∈ d.toks, InP P e t) :
    NoUb (processEmitting e f d) := by
  have hx : IndexExact (swapped d) := by
    intro s i
    simp [swapped, hprev]
  unfold processEmitting
  obtain ⟨⟨cut, ab, best⟩, hc⟩ := getCutoff_total hfr hne hs hcm
  simp only [hc, ok_bind]
  split
  · exact .ok _
  · refine NoUb.bind ?_ fun nwc0 _ => ?_
    · refine foldlM_noUb (P := fun _ => True) (fun _ _ _ _ _ _ => trivial) ?_ trivial
      intro b a ha _
      unfold bestArc
      split
      · exact .ok _
      · exact (emitTotal_noUb hT _ _ ha).bind fun _ _ => .ok _
    · refine NoUb.bind ?_ fun _ _ => .ok _
      have hQ : EmitClosed e f (fun _ => True) (fun _ => True) := fun _ _ _ _ _ _ _ _ _ _ => trivial
      refine foldlM_noUb (P := fun b : D × Dec F => IndexExact b.2) ?_ ?_ hx
      · intro b t b' _ hb hf
        exact (emitTok_inv hQ (n := 0) (d0 := b.2) trivial
          ⟨hb, fun _ _ => trivial, rfl, rfl, rfl, by simp⟩ hf).exact
      · intro b t ht hb
        unfold emitTok
        split
        · exact .ok _
        · refine NoUb.bind ?_ fun _ _ => .ok _
          refine foldlM_noUb (P := fun b : D × Dec F => IndexExact b.2) ?_ ?_ hb
          · intro b a b' ha hb hf
            exact (emitArc_inv hQ trivial ha ⟨hb, fun _ _ => trivial, Frame.refl b.2⟩ hf).exact
          · intro b a ha hb
            exact emitArc_noUb hT (hp t ht) ha hb

theorem process_noUb {e : Env F D} {P : Int → Prop} (hT : Tame e P) (hfr : FracLaw e.ar) {f : List F} {fuel : Nat}
    {d : Dec F} (hprev : d.prev = []) (hne : d.toks ≠ []) (hs : d.toks.length < 2 ^ 64) (hcm : Comparable e.ar (d.toks.map (·.cost)))
    (hp : ∀ t ∈ d.toks, InP P e t) :
    NoUb (process e fuel f d) := by
  unfold process
  refine (processEmitting_noUb hT hfr hprev hne hs hcm hp).bind fun r hr => ?_
  obtain ⟨c, d1⟩ := r
  have hx := processEmitting_inv (hT.emit f) hprev hp hr
  cases c with
  | none => exact .ok _
  | some c =>
    simp only
    split
    · exact .ok _
    · refine (processNonemitting_noUb hT hx.1 hx.2.1).bind fun d2 _ => ?_
      split <;> exact .ok _

end Verif.Decoder
