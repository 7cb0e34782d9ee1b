import Verif.InitHeap
import Verif.InitExample

/-!
# C65, C66, C67: loading a recogniser and giving it back
-/

namespace Verif.App

open Verif Verif.Text Verif.App.Spec

variable {G : Type}

/-! ## C65: a model directory is loaded exactly -/

/-- **C65.**  If a configuration names files that hold a model, as the converters write it, `ce_stt_init` returns a
recogniser that holds exactly that model: graph, network, logarithms of the priors, contexts, chunk size, map from
transition ids, symbols, and the large language model with its unigram scores if there is one.  It does not matter in
which order the keys come, in which letter case, what they were defined as before, or what follows the data in a file. -/
theorem C65_load (w : World G) (conf bytes : Str) (defs : List (Str × Str)) (m : Spec.Model G) (h : Heap)
    (hf : w.file conf = some bytes) (hc : IsConf bytes defs) (hi : Installed w conf defs m) (ho : m.Ok w) :
    ∃ s h', init w conf h = .ok (some (h.next, s), h', none) ∧ Holds w s m := by
  obtain ⟨c, hr, hk⟩ := readConf_knows hf hc
  obtain ⟨t, ht, t1, t2, t3⟩ := readSyms_ok hk hi ho
  have hload : ∃ s h', loadAll w c h.new.2 = .ok (none, h', s) ∧ Holds w s m := by
    have s1 := readHclg_ok hk hi h.new.2 (.empty : Self G)
    have s2 := (andThen_ok (next := readAm w c) s1).trans (readAm_ok hk hi ho _ _)
    have s3 := (andThen_ok (next := readSyms w c) s2).trans (ht _ _)
    have hlm := hi.lm
    unfold loadAll
    cases hm : m.lm with
    | none =>
      simp only [hm] at hlm
      have s4 := (andThen_ok (next := readDelta w c) s3).trans (readDelta_none hk hlm _ _)
      refine ⟨_, _, (andThen_ok s4).trans rfl, ⟨⟨_, rfl⟩, ⟨_, rfl⟩, ⟨_, t, rfl, t1, t2, t3, ?_⟩, ?_, ⟨_, rfl⟩⟩⟩
      · intro b e hd
        cases hd
      · simp only [hm]
        exact ⟨rfl, rfl, rfl⟩
    | some p =>
      obtain ⟨u, tr⟩ := p
      simp only [hm] at hlm
      obtain ⟨⟨f1, j1, bs, n1, b1, e1⟩, f2, j2, n2, e2⟩ := hlm
      obtain ⟨o1, o2, o3, o4, o5, o6⟩ := ho.lm u tr hm
      obtain ⟨l, hl, hlo⟩ := largeRead_ok o2 o3 o4 o5 o6 b1 j1
      have s4 := (andThen_ok (next := readDelta w c) s3).trans
        (readDelta_some hk n1 e1 hl n2 e2 (originalRead_ok o1 j2) _ _ _ t rfl)
      refine ⟨_, _, (andThen_ok s4).trans rfl, ⟨⟨_, rfl⟩, ⟨_, rfl⟩, ⟨_, t, rfl, t1, t2, t3, ?_⟩, ?_, ⟨_, rfl⟩⟩⟩
      · intro b e hd
        cases hd
        rfl
      · simp only [hm]
        exact ⟨⟨_, l, rfl, hlo⟩, ⟨_, rfl⟩, _, _, rfl⟩
  obtain ⟨s, h', hl, hh⟩ := hload
  refine ⟨s, h', ?_, hh⟩
  unfold init
  simp only [hr, hl, ok_bind]
  rfl

/-- The hypotheses hold for the model directory of `InitExample`, with a large language model. -/
example : Ex.world.file [100, 47, 99] = some (Ex.confOf Ex.defs) ∧ IsConf (Ex.confOf Ex.defs) Ex.defs ∧
    Installed Ex.world [100, 47, 99] Ex.defs Ex.model ∧ Ex.model.Ok Ex.world ∧ Ex.model.lm ≠ none :=
  ⟨Ex.conf_file, Ex.conf_ok, Ex.installed, Ex.model_ok, by intro h; cases h⟩

/-- The program run on that directory: graph and address, … -/
example : (init Ex.world [100, 47, 99] ⟨0, []⟩).map (fun r => r.1.map (fun p => [p.2.fst.map Prod.snd, some p.1])) =
    .ok (some [some 99, some 0]) := by
  decide +kernel

/-- … and numbers of the acoustic model. -/
example : (init Ex.world [100, 47, 99] ⟨0, []⟩).map (fun r => r.1.bind (fun p => p.2.am.bind (fun a => a.2.map
      fun d => (d.logPrior, [d.left, d.right, d.chunk, d.numPdfs] ++ d.tid2pdf)))) =
    .ok (some ([105, 106], [12, 3, 40, 5, -1, 0, 4])) := by
  decide +kernel

/-! ## C66: what is missing is reported -/

/-- **C66, no half-loaded recogniser.**  Whatever the files hold: if `ce_stt_init` returns a recogniser, everything is
in it, and the parts of the large language model are all there or all absent. -/
theorem C66_complete_or_null (w : World G) (conf : Str) (h h' : Heap) (a : Nat) (s : Self G) (c : Option Code)
    (hx : init w conf h = .ok (some (a, s), h', c)) :
    c = none ∧ (∃ p, s.fst = some p) ∧ (∃ b d, s.am = some (b, some d)) ∧ (∃ b t, s.symbols = some (b, some t)) ∧
      (∃ p, s.fbank = some p) ∧
      ((s.large = none ∧ s.original = none ∧ s.delta = none) ∨
        ((∃ b l, s.large = some (b, some l)) ∧ (∃ b v, s.original = some (b, some v)) ∧
          ∃ b b' t, s.symbols = some (b, some t) ∧ s.delta = some (b', t.bos, t.eos))) := by
  rcases init_after hx with ⟨hp, _⟩ | ⟨s', cf, hp, hc, _, _, k⟩
  · cases hp
  · cases hp
    refine ⟨hc, k.fst, ?_, ?_, k.fbank, ?_⟩
    · obtain ⟨b, d, _, hd⟩ := k.am
      exact ⟨b, d, hd⟩
    · obtain ⟨b, t, _, _, _, _, ht⟩ := k.symbols
      exact ⟨b, t, ht⟩
    · obtain ⟨large, _, hl | ⟨_, _, _, l, v, a1, a2, a3, a4, t, _, _, _, _, _, _, _, q1, q2, q3, q4⟩⟩ := k.lm
      · exact .inl hl.2
      · exact .inr ⟨⟨a2, l, q2⟩, ⟨a3, v, q3⟩, a1, a4, t, q1, q4⟩

/-- The recogniser of the example directory. -/
example : ((init Ex.world [100, 47, 99] ⟨0, []⟩).map (fun r => (r.1.isSome, r.2.2))) = .ok (true, none) := by
  decide +kernel

/-- **C66, no configuration.**  If the configuration cannot be opened, the answer is the null pointer and an
input/output error. -/
theorem C66_no_configuration (w : World G) (conf : Str) (h : Heap) (hf : w.file conf = none) :
    ∃ h', init w conf h = .ok (none, h', some .io) := by
  unfold init readConf openFile
  rw [hf]
  exact ⟨_, rfl⟩

example : Ex.world.file [99] = none := by decide +kernel

/-- **C66.**  If what is there is well formed, `ce_stt_init` returns a recogniser if nothing is missing, and the null
pointer if anything is, with a status that is true: "corruption" if some needed key is not defined, "input/output error"
if some named file cannot be opened.

Missing for the full property: malformed files and values, for which the claim is false, see
`C66_malformed_number_throws` and `C66_negative_prior_aborts` (and C53, C11 for the files). -/
theorem C66_missing_partial (w : World G) (conf bytes : Str) (defs : List (Str × Str)) (h : Heap)
    (hf : w.file conf = some bytes) (hc : IsConf bytes defs) (hs : Sound w conf defs) :
    ((∀ c, ¬ Missing w conf defs c) → ∃ a s h', init w conf h = .ok (some (a, s), h', none)) ∧
    ((∃ c, Missing w conf defs c) → ∃ h' c, init w conf h = .ok (none, h', some c) ∧ Missing w conf defs c) := by
  obtain ⟨c, hr, hk⟩ := readConf_knows hf hc
  rcases loadAll_step hk hs h.new.2 with ⟨h1, s1, e, ⟨⟨p1, p2⟩, p3⟩, p4⟩ | ⟨c1, h1, s1, e, hm⟩
  · refine ⟨fun _ => ⟨h.new.1, s1, h1, ?_⟩, fun ⟨c, hm⟩ => absurd hm (not_missing hk p1 p2 p3 p4 c)⟩
    unfold init
    simp only [hr, e, ok_bind]
  · refine ⟨fun hn => absurd hm (hn _), fun _ => ?_⟩
    have ho := (loadAll_after (rest := h.new.2.live) (.refl _) e).1
    obtain ⟨h2, e2, _⟩ := destroy_owns ho h.new.1
    refine ⟨h2, c1, ?_, hm⟩
    unfold init
    simp only [hr, e, ok_bind]
    unfold initFailed
    rw [e2, ok_bind]

/-- A model that is installed is sound. -/
theorem sound_of_installed {w : World G} {conf : Str} {defs : List (Str × Str)} {m : Spec.Model G}
    (hi : Installed w conf defs m) (ho : m.Ok w) (hor : m.lm = none →
      Part w conf defs [111, 114, 105, 103, 105, 110, 97, 108, 95, 108, 109] (ValidVec fun _ => True)) :
    Sound w conf defs := by
  refine ⟨?_, ?_, ?_, ?_, ?_, ?_, ?_, ?_⟩
  · obtain ⟨f, hn, _⟩ := hi.fst
    exact .inr ⟨f, hn⟩
  · obtain ⟨f, j, hn, e⟩ := hi.nnet
    refine .inr ⟨f, hn, fun bs hb => ?_⟩
    rw [e] at hb
    cases hb
    exact ⟨_, _, _, j, ho.netLeft, ho.netRight, ho.layers, ho.layer, rfl⟩
  · obtain ⟨f, j, hn, e⟩ := hi.prior
    refine .inr ⟨f, hn, fun bs hb => ?_⟩
    rw [e] at hb
    cases hb
    exact ⟨_, j, ho.prior, ho.nonneg, rfl⟩
  · intro key hk
    simp only [List.mem_cons, List.not_mem_nil, or_false] at hk
    rcases hk with rfl | rfl | rfl | rfl
    · exact .inr ⟨_, hi.left⟩
    · exact .inr ⟨_, hi.right⟩
    · exact .inr ⟨_, hi.chunk⟩
    · exact .inr ⟨_, hi.pdfs⟩
  · obtain ⟨f, j, hn, e⟩ := hi.map
    refine .inr ⟨f, hn, fun bs hb => ?_⟩
    rw [e] at hb
    cases hb
    exact ⟨_, j, intWords_ok ho.map, fun _ _ => trivial, rfl⟩
  · obtain ⟨f, hn, e⟩ := hi.symbols
    refine .inr ⟨f, hn, fun bs hb => ?_⟩
    rw [e] at hb
    cases hb
    exact ⟨_, ho.symbols, ho.sents.1, ho.sents.2, rfl⟩
  · have hlm := hi.lm
    cases hm : m.lm with
    | none => simp only [hm] at hlm; exact .inl hlm
    | some p =>
      obtain ⟨u, tr⟩ := p
      simp only [hm] at hlm
      obtain ⟨⟨f1, j1, bs, n1, b1, e1⟩, _⟩ := hlm
      obtain ⟨o1, o2, o3, o4, o5, o6⟩ := ho.lm u tr hm
      refine .inr ⟨f1, n1, fun bs hb => ?_⟩
      rw [e1] at hb
      cases hb
      exact ⟨tr, _, j1, o2, o3, o4, o5, o6, b1, rfl⟩
  · have hlm := hi.lm
    cases hm : m.lm with
    | none => exact hor hm
    | some p =>
      obtain ⟨u, tr⟩ := p
      simp only [hm] at hlm
      obtain ⟨_, f2, j2, n2, e2⟩ := hlm
      refine .inr ⟨f2, n2, fun bs hb => ?_⟩
      rw [e2] at hb
      cases hb
      exact ⟨u, j2, (ho.lm u tr hm).1, fun _ _ => trivial, rfl⟩

/-- Removing a file keeps a directory sound. -/
theorem sound_without {w : World G} {conf : Str} {defs : List (Str × Str)} (hs : Sound w conf defs) (name : Str) :
    Sound (w.with name none) conf defs := by
  have hp : ∀ {key : Str} {valid : List UInt8 → Prop}, Part w conf defs key valid →
      Part (w.with name none) conf defs key valid := by
    rintro key valid (hu | ⟨f, hn, hv⟩)
    · exact .inl hu
    · refine .inr ⟨f, hn, fun bs hb => hv bs ?_⟩
      unfold World.with at hb
      simp only at hb
      split at hb
      · cases hb
      · exact hb
  exact ⟨hs.fst, hp hs.nnet, hp hs.prior, hs.number, hp hs.map, hp hs.symbols, hp hs.large, hp hs.original⟩

/-- The example directory is sound, also without the file of the priors, and then that file is missing. -/
example : Sound Ex.world [100, 47, 99] Ex.defs ∧ Sound (Ex.world.with [100, 47, 112] none) [100, 47, 99] Ex.defs ∧
    Missing (Ex.world.with [100, 47, 112] none) [100, 47, 99] Ex.defs .io :=
  have h := sound_of_installed Ex.installed Ex.model_ok (by intro h; cases h)
  ⟨h, sound_without h _, .file kPrior _ (by decide) (Ex.names_at 3 rfl (by decide) (by decide) (by decide)) rfl⟩

/-- The program run on it. -/
example : (init (Ex.world.with [100, 47, 112] none) [100, 47, 99] ⟨0, []⟩).map (fun r => (r.1.isNone, r.2.2)) =
    .ok (true, some .io) := by decide +kernel

theorem stoi_letter {c : UInt8} (hc : 65 ≤ c) (v : Str) : stoi (c :: v) = .error .throw := by
  have h0 : c ≠ 0 := by rintro rfl; exact absurd hc (by decide)
  have h1 : c ≠ 45 := by rintro rfl; exact absurd hc (by decide)
  have h2 : c ≠ 43 := by rintro rfl; exact absurd hc (by decide)
  have hcn : 65 ≤ c.toNat := UInt8.le_iff_toNat_le.1 hc
  have h3 : isSpace c = false := by
    unfold isSpace
    have : c ≠ 32 := by rintro rfl; exact absurd hc (by decide)
    have h13 : ¬ c ≤ 13 := by
      intro h
      have := UInt8.le_iff_toNat_le.1 h
      simp at this
      omega
    simp [this, h13]
  have h4 : isDigit 10 c = false := by
    unfold isDigit digitVal
    have h57 : ¬ (48 ≤ c ∧ c ≤ 57) := by
      rintro ⟨_, h⟩
      have := UInt8.le_iff_toNat_le.1 h
      simp at this
      omega
    rw [if_neg h57]
    by_cases ha : 97 ≤ c ∧ c ≤ 122
    · rw [if_pos ha]
      have := UInt8.le_iff_toNat_le.1 ha.1
      simp at this
      simp only [decide_eq_false_iff_not]
      omega
    · rw [if_neg ha]
      by_cases hb : 65 ≤ c ∧ c ≤ 90
      · rw [if_pos hb]
        simp only [decide_eq_false_iff_not]
        omega
      · rw [if_neg hb]
  have hs : sign (cstr (c :: v)) = (false, c :: cstr v) := by
    unfold sign cstr
    rw [List.takeWhile_cons_of_pos (by simpa using h0), List.dropWhile_cons_of_neg (by simp [h3])]
    simp only [h1, h2, if_false]
  unfold stoi
  rw [hs]
  simp only [h4]
  rfl

/-- **C66, negative part.**  If the value of `left_context` is not a number (here: begins with a letter), `ce_stt_init`
does not return the null pointer with a message: an exception leaves it. -/
theorem C66_malformed_number_throws (w : World G) (conf bytes : Str) (defs : List (Str × Str)) (h : Heap)
    (hf : w.file conf = some bytes) (hc : IsConf bytes defs) (f n p : Str) (g : G) (bn bp : List UInt8)
    (hfst : Names conf defs [102, 115, 116] f) (hg : w.readGraph f = some g)
    (hn : Names conf defs [110, 110, 101, 116] n) (hnf : w.file n = some bn) (hnv : ValidNnet bn)
    (hp : Names conf defs [112, 114, 105, 111, 114] p) (hpf : w.file p = some bp)
    (hpv : ValidVec (fun x => w.nonneg x = true) bp)
    (letter : UInt8) (v : Str) (hlet : 65 ≤ letter) (hres : letter :: v ≠ reserved)
    (hd : Defines defs [108, 101, 102, 116, 95, 99, 111, 110, 116, 101, 120, 116] (letter :: v)) :
    init w conf h = .error .throw := by
  obtain ⟨c, hr, hk⟩ := readConf_knows hf hc
  have h1 : c.getPathOrElse kFst [] = .ok f := getPathOrElse_names hk hfst _
  have h2 : openKey w c kNnet = .ok bn := openKey_names hk hn hnf
  have h3 : openKey w c kPrior = .ok bp := openKey_names hk hp hpf
  have h4 : c.getInteger kLeft = .error (.fault .throw) := by
    unfold Config.getInteger Config.getIntegerOrElse Config.getStringOrElse
    have := hk.some _ _ hd
    rw [show mapFind c.table (tolower kLeft) = some (letter :: v) from this]
    simp only
    rw [if_neg (show letter :: v ≠ kDefault from hres), stoi_letter hlet]
    rfl
  have ham : amRead w c = .error (.fault .throw) := by
    obtain ⟨nl, nr, ls, junk, a1, a2, a3, a4, rfl⟩ := hnv
    obtain ⟨pv, junk, k1, k2, rfl⟩ := hpv
    unfold amRead
    rw [h2, io_ok_bind, Ser.C33_round_trip _ _ a1 a2 _ a3 a4, io_ok_bind, h3, io_ok_bind, Ser.C31_vector _ k1, io_ok_bind]
    simp only
    rw [applyLog_some w _ k2]
    simp only [Io.ofExec, io_ok_bind]
    rw [h4]
    rfl
  have s1 : readHclg w c h.new.2 .empty = .ok (none, h.new.2.new.2, { (.empty : Self G) with
      fst := some (h.new.2.new.1, g) }) := by
    unfold readHclg
    rw [h1, ok_bind, if_neg (names_ne hk hfst).1, hg]
  have hl : loadAll w c h.new.2 = .error .throw := by
    unfold loadAll
    rw [andThen_ok s1]
    unfold readAm
    rw [ham]
    rfl
  unfold init
  simp only [hr, hl]
  rfl

/-- The example directory with `left_context=x`. -/
def badNumber : World Nat := Ex.world.with [100, 47, 99] (some (Ex.confOf (Ex.defs ++ [(kLeft, [120])])))

example : badNumber.file [100, 47, 99] = some (Ex.confOf (Ex.defs ++ [(kLeft, [120])])) ∧
    IsConf (Ex.confOf (Ex.defs ++ [(kLeft, [120])])) (Ex.defs ++ [(kLeft, [120])]) ∧
    Names [100, 47, 99] (Ex.defs ++ [(kLeft, [120])]) [102, 115, 116] [100, 47, 103] ∧
    badNumber.readGraph [100, 47, 103] = some 99 ∧
    Defines (Ex.defs ++ [(kLeft, [120])]) [108, 101, 102, 116, 95, 99, 111, 110, 116, 101, 120, 116] [120] :=
  ⟨rfl, Ex.isConf (by decide +kernel), Ex.names_at 0 rfl (by decide) (by decide) (by decide), rfl,
    Ex.defines_at 12 rfl (by decide) (by decide)⟩

/-- The program run on it. -/
example : init badNumber [100, 47, 99] ⟨0, []⟩ = .error .throw := by decide +kernel

theorem applyLog_negative (w : World G) : ∀ (v : List Nat), (∃ x ∈ v, w.nonneg x = false) →
    applyLog w (v.map some) = .error .assert
  | [], ⟨_, hx, _⟩ => by simp at hx
  | y :: v, hx => by
    rw [List.map_cons, applyLog, useWord, ok_bind]
    cases hy : w.nonneg y with
    | false => rfl
    | true =>
      rw [cassert_true, ok_bind]
      obtain ⟨x, hm, hn⟩ := hx
      rcases List.mem_cons.1 hm with rfl | hm
      · rw [hy] at hn; cases hn
      · rw [applyLog_negative w v ⟨x, hm, hn⟩]
        rfl

/-- **C66, negative part.**  If the file of the priors holds a negative number, `ce_stt_init` does not return the null
pointer with a message: the program aborts. -/
theorem C66_negative_prior_aborts (w : World G) (conf bytes : Str) (defs : List (Str × Str)) (h : Heap)
    (hf : w.file conf = some bytes) (hc : IsConf bytes defs) (f n p : Str) (g : G) (bn : List UInt8)
    (hfst : Names conf defs [102, 115, 116] f) (hg : w.readGraph f = some g)
    (hn : Names conf defs [110, 110, 101, 116] n) (hnf : w.file n = some bn) (hnv : ValidNnet bn)
    (hp : Names conf defs [112, 114, 105, 111, 114] p) (v : List Nat) (junk : List UInt8) (hv : Ser.Spec.VecOk v)
    (hpf : w.file p = some (Ser.writeVec v ++ junk)) (hneg : ∃ x ∈ v, w.nonneg x = false) :
    init w conf h = .error .assert := by
  obtain ⟨c, hr, hk⟩ := readConf_knows hf hc
  have h1 : c.getPathOrElse kFst [] = .ok f := getPathOrElse_names hk hfst _
  have h2 : openKey w c kNnet = .ok bn := openKey_names hk hn hnf
  have h3 : openKey w c kPrior = .ok (Ser.writeVec v ++ junk) := openKey_names hk hp hpf
  have ham : amRead w c = .error (.fault .assert) := by
    obtain ⟨nl, nr, ls, junk, a1, a2, a3, a4, rfl⟩ := hnv
    unfold amRead
    rw [h2, io_ok_bind, Ser.C33_round_trip _ _ a1 a2 _ a3 a4, io_ok_bind, h3, io_ok_bind, Ser.C31_vector _ hv, io_ok_bind]
    simp only
    rw [applyLog_negative w _ hneg]
    rfl
  have s1 : readHclg w c h.new.2 .empty = .ok (none, h.new.2.new.2, { (.empty : Self G) with
      fst := some (h.new.2.new.1, g) }) := by
    unfold readHclg
    rw [h1, ok_bind, if_neg (names_ne hk hfst).1, hg]
  have hl : loadAll w c h.new.2 = .error .assert := by
    unfold loadAll
    rw [andThen_ok s1]
    unfold readAm
    rw [ham]
    rfl
  unfold init
  simp only [hr, hl]
  rfl

/-- The example directory with a negative prior (`9` in that world). -/
example : (Ex.world.with [100, 47, 112] (some (Ser.writeVec [5, 9]))).nonneg 9 = false ∧ Ser.Spec.VecOk [5, 9] ∧
    init (Ex.world.with [100, 47, 112] (some (Ser.writeVec [5, 9]))) [100, 47, 99] ⟨0, []⟩ = .error .assert :=
  ⟨rfl, ⟨by decide, by decide, by decide⟩, by decide +kernel⟩

/-! ## C67: memory -/

/-- **C67, all but one block.**  Whatever the files hold: after a failed `ce_stt_init`, and after a successful one
followed by `ce_stt_destroy`, the blocks that are live are those that were live before, and one more; nothing is deleted
twice.

Missing for the full property: the one block more, the structure itself; see `C67_structure_leaks`. -/
theorem C67_all_but_one_partial (w : World G) (conf : Str) (h h' : Heap) (p : Ptr (Self G)) (c : Option Code)
    (hx : init w conf h = .ok (p, h', c)) :
    (p = none → h'.live.Perm (h.next :: h.live)) ∧
    (p ≠ none → ∃ h'' s, destroy h' p = .ok (h'', s) ∧ h''.live.Perm (h.next :: h.live)) := by
  rcases init_after hx with ⟨rfl, _, hl⟩ | ⟨s', cf, rfl, _, _, ho, _⟩
  · exact ⟨fun _ => hl, fun hn => absurd rfl hn⟩
  · refine ⟨fun hn => (by cases hn), fun _ => ?_⟩
    obtain ⟨h2, e2, p2⟩ := destroy_owns ho h.next
    exact ⟨h2, _, e2, p2⟩

/-- On the example directory, eight blocks are made and seven given back. -/
example : (do
    let r ← init Ex.world [100, 47, 99] ⟨5, [2]⟩
    let d ← destroy r.2.1 r.1
    .ok (r.2.1.live.length, d.1.live) : Exec (Nat × List Nat)) = .ok (9, [5, 2]) := by decide +kernel

/-- Making and destroying a recogniser, `n` times. -/
def cycles (w : World G) (conf : Str) : Nat → Heap → Exec Heap
  | 0, h => .ok h
  | n + 1, h => do
    let (p, h, _) ← init w conf h
    match p with
    | none => cycles w conf n h
    | some x => do
      let (h, _) ← destroy h (some x)
      cycles w conf n h

/-- **C67, negative part.**  Each recogniser that was made and destroyed, and each failed attempt, leaves a block
behind: after `n` of them there are `n` blocks more. -/
theorem C67_structure_leaks (w : World G) (conf : Str) : ∀ (n : Nat) (h h' : Heap), cycles w conf n h = .ok h' →
    h'.live.length = h.live.length + n
  | 0, h, h', hx => by
    cases hx
    rfl
  | n + 1, h, h', hx => by
    unfold cycles at hx
    obtain ⟨⟨p, h1, c⟩, e, hx⟩ := bind_ok hx
    obtain ⟨k1, k2⟩ := C67_all_but_one_partial w conf h h1 p c e
    cases p with
    | none =>
      have := C67_structure_leaks w conf n h1 h' hx
      rw [this, (k1 rfl).length_eq, List.length_cons]
      omega
    | some x =>
      obtain ⟨h2, s, e2, p2⟩ := k2 (by simp)
      simp only at hx
      rw [e2, ok_bind] at hx
      have := C67_structure_leaks w conf n h2 h' hx
      rw [this, p2.length_eq, List.length_cons]
      omega

example : (cycles Ex.world [100, 47, 99] 3 ⟨0, []⟩).map (fun h => h.live.length) = .ok 3 := by decide +kernel

/-- **C67, twice.**  `ce_stt_destroy` a second time does nothing. -/
theorem C67_destroy_twice (h h' : Heap) (a : Nat) (s s' : Self G) (hx : destroy h (some (a, s)) = .ok (h', s')) :
    destroy h' (some (a, s')) = .ok (h', s') := by
  unfold destroy at hx
  simp only at hx
  obtain ⟨_, _, hx⟩ := bind_ok hx
  obtain ⟨_, _, hx⟩ := bind_ok hx
  obtain ⟨_, _, hx⟩ := bind_ok hx
  obtain ⟨_, _, hx⟩ := bind_ok hx
  obtain ⟨_, _, hx⟩ := bind_ok hx
  obtain ⟨_, _, hx⟩ := bind_ok hx
  obtain ⟨_, _, hx⟩ := bind_ok hx
  cases hx
  rfl

example : (do
    let r ← init Ex.world [100, 47, 99] ⟨5, [2]⟩
    let d ← destroy r.2.1 r.1
    .ok d.1.live : Exec (List Nat)) = .ok [5, 2] := by decide +kernel

/-- **C67, negative part.**  `ce_stt_destroy(NULL)` is undefined (`ce_stt_init` returns NULL when it fails). -/
theorem C67_destroy_null (h : Heap) : destroy h (none : Ptr (Self G)) = .error .ub := rfl

/-- The stores of texts between making and destroying an utterance. -/
def stores : Nat → Heap → UttMem → Exec (UttMem × Heap)
  | 0, h, u => .ok (u, h)
  | n + 1, h, u => do
    let (u, h) ← uttStore h u
    stores n h u

/-- The blocks of an utterance and the rest. -/
def UttOwns (rest : List Nat) (h : Heap) (u : UttMem) : Prop :=
  h.live.Perm (u.hyp.toList ++ ((some u.decoder).toList ++ ((some u.internal).toList ++ ((some u.utt).toList ++ rest))))

theorem uttInit_owns (h : Heap) : ∃ u h', uttInit h true = .ok (some u, h') ∧ UttOwns h.live h' u := by
  refine ⟨_, _, rfl, ?_⟩
  exact .refl _

theorem uttDestroy_owns {rest : List Nat} {h : Heap} {u : UttMem} (ho : UttOwns rest h u) :
    ∃ h', uttDestroy h u = .ok h' ∧ h'.live.Perm rest := by
  obtain ⟨h1, e1, p1⟩ := del_perm ho
  obtain ⟨h2, e2, p2⟩ := del_perm p1
  obtain ⟨h3, e3, p3⟩ := del_perm p2
  obtain ⟨h4, e4, p4⟩ := del_perm p3
  refine ⟨h4, ?_, p4⟩
  unfold uttDestroy
  rw [e1, ok_bind, e2, ok_bind, e3, ok_bind, e4]

theorem uttStore_owns {rest : List Nat} {h : Heap} {u : UttMem} (ho : UttOwns rest h u) :
    ∃ u' h', uttStore h u = .ok (u', h') ∧ UttOwns rest h' u' := by
  obtain ⟨h1, e1, p1⟩ := del_perm ho
  refine ⟨{ u with hyp := some h1.new.1 }, h1.new.2, ?_, ?_⟩
  · unfold uttStore
    rw [e1, ok_bind]
  · exact p1.cons _

theorem stores_owns : ∀ {rest : List Nat} (n : Nat) {h : Heap} {u : UttMem}, UttOwns rest h u →
    ∃ u' h', stores n h u = .ok (u', h') ∧ UttOwns rest h' u'
  | _, 0, h, u, ho => ⟨u, h, rfl, ho⟩
  | _, n + 1, h, u, ho => by
    obtain ⟨u1, h1, e1, o1⟩ := uttStore_owns ho
    obtain ⟨u2, h2, e2, o2⟩ := stores_owns n o1
    refine ⟨u2, h2, ?_, o2⟩
    unfold stores
    rw [e1, ok_bind]
    exact e2

/-- **C67, utterances.**  An utterance gives back all its memory: after `ce_utt_init`, any number of texts stored by
`ce_utt_end`, and `ce_utt_destroy`, the live blocks are those from before; and the same after a `ce_utt_init` that fails
because of the format. -/
theorem C67_utterance_returns_memory (h : Heap) (n : Nat) :
    (∃ u h1, uttInit h true = .ok (some u, h1) ∧ ∃ u' h2, stores n h1 u = .ok (u', h2) ∧
      ∃ h3, uttDestroy h2 u' = .ok h3 ∧ h3.live.Perm h.live) ∧
    (∃ h1, uttInit h false = .ok (none, h1) ∧ h1.live.Perm h.live) := by
  constructor
  · obtain ⟨u, h1, e1, o1⟩ := uttInit_owns h
    obtain ⟨u', h2, e2, o2⟩ := stores_owns n o1
    obtain ⟨h3, e3, p3⟩ := uttDestroy_owns o2
    exact ⟨u, h1, e1, u', h2, e2, h3, e3, p3⟩
  · obtain ⟨u, h1, e1, o1⟩ := uttInit_owns h
    obtain ⟨h3, e3, p3⟩ := uttDestroy_owns o1
    refine ⟨h3, ?_, p3⟩
    unfold uttInit at e1 ⊢
    simp only [if_true] at e1
    cases e1
    simp only [Bool.false_eq_true, if_false]
    rw [e3]
    rfl

/-- One utterance with two texts in a heap with two other blocks. -/
example : (do
    let r ← uttInit ⟨8, [3, 7]⟩ true
    match r.1 with
    | none => .error .ub
    | some u => do
      let s ← stores 2 r.2 u
      let h ← uttDestroy s.2 s.1
      .ok (s.2.live, h.live) : Exec (List Nat × List Nat)) = .ok ([13, 10, 9, 8, 3, 7], [3, 7]) := by decide +kernel

end Verif.App
