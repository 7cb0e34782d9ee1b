import Verif.BeamAlive
import Verif.BeamProps

/-!
# C95: a path in the beam keeps the beam alive
-/

namespace Verif.Decoder.Beam

open Verif Verif.Fst

variable {F D : Type} {fn : F → Bool} {dn : D → Bool}

/-- C95, refusals.  As long as some path over all frames never leaves the beam and no sum of costs is too large for the
arithmetic, no frame is refused. -/
theorem C95_alive {e : Env F D} (ho : DOrder e.ar) (hl : NanLaws e.ar fn dn) (hm : MonoLaws e.ar fn dn)
    {fs : List (List F)} {s0 : State} (hs : StartState e s0) (hfew : Few e fs) (hnn : NoNan e fn s0 fs)
    (hbd : Bounded e s0 fs) {p : List (GArc F)} {s : State} {c : F} (hp : InBeam e s0 fs p s c)
    (hn : emitted p = fs.length) : Alive e fs := by
  intro gs bs cs d hg h
  induction h with
  | init => simp
  | @frame gs bs cs d d' fuel f b x hrun h ih =>
    have hg' : gs <+: fs := (List.prefix_append _ _).trans hg
    have hb := ih hg'
    have hfew' : Few e gs := fun ks bs cs d hk => hfew ks bs cs d (hk.trans hg')
    have hnn' : NoNan e fn s0 gs := fun p s c h => hnn p s c (PathTo.more h hg')
    have hlt : gs.length < fs.length := by
      have := hg.length_le
      simp at this
      omega
    obtain ⟨q, t, y, v, a, l, k, f', k1, k2, k3, k4, k5, k6, k7, k8, k9⟩ := hp.at (n := gs.length) (by omega)
    have hff : f' = f := by
      obtain ⟨r, rfl⟩ := id hg
      rw [List.append_assoc, List.getElem?_append_right (Nat.le_refl _), Nat.sub_self] at k5
      simpa using k5.symm
    subst hff
    have hr : Reaches e.ar fn d t y := hrun.optimal hl hm hb hs hnn'
      ((k1.restrict hg' (by omega)).survives ho hl hrun hb hs hfew') k2
    have hpaths : ∀ t ∈ d.toks, ∃ q, PathTo e s0 fs q t.state t.cost ∧ emitted q = gs.length := by
      intro t ht
      obtain ⟨q, q1, q2, _⟩ := C18_tokens_are_paths hrun hs ht
      exact ⟨q, PathTo.more q1 hg', q2⟩
    have hreach : ∀ t ∈ d.toks, ∀ a ∈ e.g.arcs t.state.1, a.ilabel ≠ 0 → ∀ v, IsScore e f' a.ilabel v →
        Reached e s0 fs gs.length (e.ar.toD (e.ar.fadd (e.ar.fadd t.cost a.weight) (e.ar.fneg v))) := by
      intro t ht a ha h0 v hv
      obtain ⟨q, q1, q2⟩ := hpaths t ht
      exact ⟨q, _, _, a, f', v, q1, q2, ha, h0, k5, hv, rfl⟩
    have hlen := hfew _ _ _ _ hg' hrun
    obtain ⟨u, hu, _⟩ := id hr
    have hcut : ∀ {cut ab best}, getCutoff e.ar d.toks = .ok (cut, ab, best) →
        e.ar.finite (e.ar.toD (e.ar.toF cut)) = true := by
      intro cut ab best hc
      obtain ⟨q, q1, _⟩ := hpaths u hu
      refine cutoff_few_finite ho hlen ?_ hu (hbd.path _ _ _ q1).2.1 hc
      intro t ht
      obtain ⟨q, q1, _⟩ := hpaths t ht
      exact ⟨(hbd.path _ _ _ q1).1, (hbd.path _ _ _ q1).2.2⟩
    obtain ⟨_, hprev⟩ := hrun.inv.alive hb
    have hpre := hrun.inv.paths s0 hs
    have hnn2 : ∀ t, IsPath e s0 (gs ++ [f']) (gs ++ [f']).length t → fn t.cost = false :=
      NoNan.isPath fun p s c h => hnn p s c (PathTo.more h hg)
    have hQ := isPath_emit e s0 gs f'
    suffices b = true by
      intro b' hb'
      rcases List.mem_append.1 hb' with h | h
      · exact hb b' h
      · rw [List.mem_singleton.1 h]; exact this
    obtain ⟨d1, h1, h2⟩ := process_cases h
    obtain ⟨cut, ab, best, h3, h4⟩ := processEmitting_cases h1
    have hfin := hcut h3
    rcases h4 with ⟨_, _, h4⟩ | ⟨_, n0, n, d2, h5, h6, rfl, rfl⟩
    · rw [hfin] at h4; cases h4
    obtain ⟨g1, rfl, rfl⟩ := cutoff_few ho hl hlen h3 hfin
    have hnext : Next e.ar (Reached e s0 fs gs.length) n :=
      emitToks_next hreach (bestArcs_next (hreach best g1) (.inl rfl) h5) h6
    have hd1 : Reaches e.ar fn { d2 with prev := [] } (a.next, l) (stepCost e y a.weight (e.ar.fneg v) k) := by
      refine processEmitting_reaches hl hm hQ hnn2 hprev hpre h1 hr (hnn _ _ _ k1.path) k3 k4 k6 k7
        (hnn _ _ _ (.emit k1.path k3 k4 (by rw [k2]; exact k5) k6 k7)) ?_ ?_
      · obtain ⟨q, q1, q2⟩ := hpaths best g1
        exact k8 _ _ _ q1 q2
      · rcases hnext with rfl | ⟨o, h7, rfl⟩
        · exact ho.inf_max ho.isInf_inf _
        · exact k9 o h7
    have hne : d2.toks ≠ [] := by
      obtain ⟨t, ht, _⟩ := hd1
      exact List.ne_nil_of_mem ht
    have hop : Opened e.ar (n, d2) := emitToks_opened ho
      (fun t ht a ha h0 v hv => (hbd.arc _ _ (hreach t ht a ha h0 v hv)).1) (.inr (by simp [swapped, hprev])) h6
    have hni : n ≠ e.ar.inf := hop.resolve_right hne
    have hnf : e.ar.finite (e.ar.toD (e.ar.toF n)) = true := by
      rcases hnext with h7 | ⟨o, h7, rfl⟩
      · exact absurd h7 hni
      · exact (hbd.arc _ _ h7).2
    rcases h2 with ⟨h2, _⟩ | ⟨c', hc', ⟨h2, _⟩ | ⟨_, d3, h8, h9⟩⟩
    · cases h2
    · cases hc'; rw [hnf] at h2; cases h2
    · cases hc'
      have hi := processEmitting_inv hQ hprev hpre h1
      obtain ⟨hbet, _⟩ := processNonemitting_closed hl hm (isPath_eps e s0 (gs ++ [f']) (gs ++ [f']).length) hnn2 hi.1
        hi.2.1 h8
      obtain ⟨t, ht, _⟩ := hbet _ _ hd1
      rcases h9 with ⟨h9, _⟩ | ⟨_, h9, _⟩
      · rw [h9] at ht; cases ht
      · exact h9

-- the fork with a first cost of 10: its second way never leaves the beam
example : Alive (fork 10) still := by
  have num : ∀ q t (c' : Q), PathTo (fork 10) (0, 0) still q t c' → ∃ r : Rat, c' = some r := by
    intro q t c' h
    rcases fork_paths h with ⟨_, _, rfl⟩ | ⟨_, _, rfl⟩ | ⟨_, _, rfl⟩ | ⟨_, _, rfl⟩ | ⟨_, _, rfl⟩ <;> exact ⟨_, rfl⟩
  obtain ⟨s, c, h1, h2, _⟩ := fork_kept
  refine C95_alive qar_dorder qar_nan qar_mono (fork_start 10) (fork_few 10) (fun _ _ _ _ => rfl) ⟨?_, ?_⟩ h1 h2
  · intro p s c h
    obtain ⟨r, rfl⟩ := num p s c h
    exact ⟨rfl, rfl, rfl⟩
  · rintro n o ⟨p, s, c, a, f, v, h1, rfl, h2, h3, h4, h5, rfl⟩
    obtain ⟨r, hr⟩ := num _ _ _ (.emit (l := s.2) (k := id) h1 h2 h3 h4 h5 (.off rfl))
    have hr : (fork 10).ar.toD ((fork 10).ar.fadd ((fork 10).ar.fadd c a.weight) ((fork 10).ar.fneg v)) = some r := hr
    rw [hr]
    exact ⟨rfl, rfl⟩

end Verif.Decoder.Beam
