import Verif.ApiText

/-!
# C83: the text of an utterance, in any program
-/

namespace Verif.Api

open Verif Verif.Text Verif.App.Spec Verif.Main.Spec Verif.Api.Spec

variable {G F D : Type}

/-- What the caller reads after the stream was fed and ended. -/
theorem ran_text {mach : Main.Machine G F D} {w : App.World G} {tr : List (Call F × Ret F)} {s s' : Session G F}
    (h : Ran mach w tr s) {conf : Str} {p a : Nat} {f : Pcm.Format} (hp : (Call.sttInit conf, Ret.ptr (some p)) ∈ tr)
    (ha : (Call.uttInit (some p) f, Ret.ptr (some a)) ∈ tr) {ds : List (Stt.Mem F × List UInt8)} {fill : Nat → UInt8}
    (hf : Fed a ds fill tr) {hyp : Str} {ll : F} (hl : step mach w s (.look (some a)) = .ok (.text hyp ll, s')) :
    ∃ self r h1 c u msg, App.init w conf ⟨0, []⟩ = .ok (some (0, self), h1, c) ∧ mach.recogniser self = some r ∧
      Stt.recognise r f fill (ds.filter fun d => !d.2.isEmpty) = .ok (.ready r u, msg) ∧
      Main.fromC u.back.hyp = .ok hyp ∧ u.back.ll = ll := by
  obtain ⟨name, self, r, u0, u, h1, c, k1, k2, k3, k4, k5, k6⟩ := ran_use h ha
  cases made_once h k1 hp
  have hu := useAll_looks r k5
  have e : ((tr.filter fun q => About a q.1).map Prod.fst).filter notLook =
      (tr.map Prod.fst).filter (fun c => About a c && notLook c) := by
    simp [List.filter_map, List.filter_filter, Function.comp_def, Bool.and_comm]
  rw [e, hf, useAll_append, useAll_full, ← useAll_append] at hu
  obtain ⟨msg, hr⟩ := useAll_recognise k4 hu
  replace hl : look s (some a) = _ := hl
  unfold look at hl
  cases hx : s.utts.get a with
  | none => simp only [hx] at hl; cases hl
  | some x =>
    simp only [hx] at hl
    obtain ⟨t, h2, hl⟩ := bind_ok hl
    cases hl
    rw [k6 x hx] at h2 ⊢
    exact ⟨self, r, h1, c, u, msg, k2, k3, hr, h2, rfl⟩

theorem full_pieces {ds : List (Stt.Mem F × List UInt8)} (h : ∀ q ∈ ds, q.2.length < 536870500) :
    ∀ q ∈ ds.filter (fun d => !d.2.isEmpty), q.2 ≠ [] ∧ q.2.length < 536870500 := by
  intro q hq
  obtain ⟨h1, h2⟩ := List.mem_filter.mp hq
  refine ⟨?_, h q h1⟩
  intro e
  rw [e] at h2
  cases h2

/-- **C83.**  A configuration names the files of a model.  In any program that has made an utterance of this recogniser,
given it a stream in pieces and ended it, between any other calls: if `hyp` can be read, it is the words that
recognition of the whole stream yields, as the symbol file spells them, with single blanks between them. -/
theorem C83_words (mach : Main.Machine G F D) (w : App.World G) (conf bytes : Str) (defs : List (Str × Str))
    (m : App.Spec.Model G) (hf : w.file conf = some bytes) (hc : IsConf bytes defs) (hi : Installed w conf defs m)
    (ho : m.Ok w) (vm : List F → List (List F) → List F) (e wd : Nat) (hfit : Fits mach m vm e wd) :
    ∃ r, IsRec mach w m r ∧ ∀ (tr : List (Call F × Ret F)) (s s' : Session G F) (p a b : Nat)
      (ds : List (Stt.Mem F × List UInt8)) (fill : Nat → UInt8) (hyp : Str) (ll : F),
      Ran mach w tr s → (Call.sttInit conf, Ret.ptr (some p)) ∈ tr →
      (Call.uttInit (some p) ⟨1, 16000, 8 * b⟩, Ret.ptr (some a)) ∈ tr → Fed a ds fill tr →
      (∀ q ∈ ds, q.2.length < 536870500) → step mach w s (.look (some a)) = .ok (.text hyp ll, s') →
      ∃ ids ws, Hears r vm b (ds.map Prod.snd).flatten ids ∧ ws.length = ids.length ∧
        (∀ (i : Nat) id word, ids.reverse[i]? = some id → ws[i]? = some word → Spells m.symbols id word) ∧
        hyp = join [32] ws := by
  obtain ⟨self, h', hx, hh⟩ := App.C65_load w conf bytes defs m ⟨0, []⟩ hf hc hi ho
  obtain ⟨r, hr, hir⟩ := Main.recogniser_holds mach hh ho
  have S := Main.sound_of_fits hir hfit
  refine ⟨r, hir, ?_⟩
  intro tr s s' p a b ds fill hyp ll h hp ha hfed hds hl
  obtain ⟨self', r', h1, c, u, msg, k1, k2, k3, k4, _⟩ := ran_text h hp ha hfed hl
  rw [hx] at k1
  cases k1
  rw [hr] at k2
  cases k2
  obtain ⟨feats, rows, d0, d, u', words, weight, g1, g2, g3, g4, g5, g6, g7, g8, g9, g10⟩ :=
    Stt.C29_end_to_end_partial S ⟨1, 16000, 8 * b⟩ b rfl fill _ (full_pieces hds) _ _ k3
  rw [full_flatten] at g1 g2
  obtain ⟨ws, w1, w2, w3⟩ := Main.storeHypText_ok g10
  cases g6
  rw [w2] at k4
  have ht := Main.fromC_ok k4 w3
  subst ht
  refine ⟨words, ws, ⟨feats, rows, d0, d, weight, g1, g2, g3, g4, g5, g9⟩, ?_, ?_, rfl⟩
  · have := congrArg List.length w1
    simpa using this.symm
  · intro i id word hid hword
    have := congrArg (·[i]?) w1
    simp only [List.getElem?_map, hid, hword, Option.map_some, Option.some.injEq] at this
    exact (hir.words id word).mp this

/-- **C83, library and program.**  The text is the one that the program `src/main.cc` writes for an audio file with this
data. -/
theorem C83_program (mach : Main.Machine G F D) (w : App.World G) (conf bytes : Str) (defs : List (Str × Str))
    (m : App.Spec.Model G) (hf : w.file conf = some bytes) (hc : IsConf bytes defs) (hi : Installed w conf defs m)
    (ho : m.Ok w) (vm : List F → List (List F) → List F) (e wd : Nat) (hfit : Fits mach m vm e wd)
    (tr : List (Call F × Ret F)) (s s' : Session G F) (p a b : Nat) (ds : List (Stt.Mem F × List UInt8))
    (fill : Nat → UInt8) (hyp : Str) (ll : F) (h : Ran mach w tr s) (hp : (Call.sttInit conf, Ret.ptr (some p)) ∈ tr)
    (ha : (Call.uttInit (some p) ⟨1, 16000, 8 * b⟩, Ret.ptr (some a)) ∈ tr) (hfed : Fed a ds fill tr)
    (hds : ∀ q ∈ ds, q.2.length < 536870500)
    (hl : step mach w s (.look (some a)) = .ok (.text hyp ll, s'))
    (input : Str) (hw : IsWav input) (file : List UInt8) (hfile : w.file input = some file)
    (haudio : IsAudio file b (ds.map Prod.snd).flatten) (junk : Nat → Main.Junk F) :
    Main.main mach w junk [conf, input] = ⟨[.line hyp], .ok ()⟩ := by
  obtain ⟨self, h', hx, hh⟩ := App.C65_load w conf bytes defs m ⟨0, []⟩ hf hc hi ho
  obtain ⟨r, hr, hir⟩ := Main.recogniser_holds mach hh ho
  have S := Main.sound_of_fits hir hfit
  obtain ⟨self', r', h1, c, u, msg, k1, k2, k3, k4, _⟩ := ran_text h hp ha hfed hl
  rw [hx] at k1
  cases k1
  rw [hr] at k2
  cases k2
  rw [Main.main_wav mach hx hw, hr, Main.say_iff]
  exact ⟨[], hyp, (Main.processAudio_iff S hfile haudio (junk 0) fill _ (full_pieces hds)
    (full_flatten ds) [] hyp).mpr ⟨rfl, u, msg, k3, k4⟩, rfl⟩

/-- **C83, completeness.**  Whenever recognition of the stream has no fault, a program that loads the recogniser, makes an
utterance, feeds it and ends it gets the text; and it may do other things in between (`C82_interleave`). -/
theorem C83_completes {mach : Main.Machine G F D} {w : App.World G} {conf : Str} {self : App.Self G} {h1 : App.Heap}
    {c : Option Code} (hx : App.init w conf ⟨0, []⟩ = .ok (some (0, self), h1, c)) {r : Stt.Rec F D}
    (hr : mach.recogniser self = some r) {f : Pcm.Format} {fill : Nat → UInt8} {ds : List (Stt.Mem F × List UInt8)}
    {u : Stt.Utt F} {msg : Stt.Msg} (hu : Stt.recognise r f fill ds = .ok (.ready r u, msg)) {hyp : Str}
    (hh : Main.fromC u.back.hyp = .ok hyp) :
    ∃ tr s a, Ran mach w tr s ∧ (Call.sttInit conf, Ret.ptr (some 0)) ∈ tr ∧
      (Call.uttInit (some 0) f, Ret.ptr (some a)) ∈ tr ∧ Fed a ds fill tr ∧
      step mach w s (.look (some a)) = .ok (.text hyp u.back.ll, s) := by
  obtain ⟨m0, h3, e3, o3⟩ := App.uttInit_owns h1
  obtain ⟨u0, hini, hall⟩ := recognise_useAll m0.utt hu
  have hc : c = none := by
    rcases App.init_after hx with ⟨e, _⟩ | ⟨self1, conf, e, rfl, _⟩
    · cases e
    · rfl
  subst hc
  have r1 : Ran mach w ([] ++ [(Call.sttInit conf, Ret.ptr (some 0))])
      (⟨h1, [(0, self)], [], .none⟩ : Session G F) := by
    refine .snoc .nil ?_
    show sttInit w .start conf = _
    unfold sttInit
    show (App.init w conf ⟨0, []⟩ >>= _) = _
    rw [hx]
    rfl
  have r2 : Ran mach w (([] ++ [(Call.sttInit conf, Ret.ptr (some 0))]) ++
      [(Call.uttInit (some 0) f, Ret.ptr (some m0.utt))])
      (⟨h3, [(0, self)], [(m0.utt, ⟨m0, 0, u0⟩)], .none⟩ : Session G F) := by
    refine .snoc r1 ?_
    show uttInit mach (⟨h1, [(0, self)], [], .none⟩ : Session G F) (some 0) f = _
    unfold uttInit
    show (Stt.initApi (mach.recogniser self) f .none >>= _) = _
    rw [hr, hini]
    simp only [ok_bind]
    rw [e3]
    rfl
  have hab : ∀ c ∈ ((ds.map fun d => Call.process (some m0.utt) d.1 (some d.2) d.2.length) ++
      [Call.endOfStream (some m0.utt) fill]), (About m0.utt c && notLook c) = true := by
    intro c hc
    rcases List.mem_append.mp hc with hc | hc
    · obtain ⟨d, _, rfl⟩ := List.mem_map.mp hc
      simp [About, notLook]
    · simp only [List.mem_cons, List.not_mem_nil, or_false] at hc
      subst hc
      simp [About, notLook]
  obtain ⟨xs, s, k0, k1, k2⟩ := run_use (mach := mach) (w := w)
    (s := (⟨h3, [(0, self)], [(m0.utt, ⟨m0, 0, u0⟩)], .none⟩ : Session G F))
    (a := m0.utt) (x := ⟨m0, 0, u0⟩) (self := self) (r := r) (u := u)
    (fun c hc => (Bool.and_eq_true_iff.mp (hab c hc)).1)
    (by show Store.get [(m0.utt, _)] m0.utt = _; rw [get_cons, if_pos rfl]) rfl hr hall
  have r3 := run_ran r2 k1
  refine ⟨_, s, m0.utt, r3, by simp, by simp, ?_, ?_⟩
  · unfold Fed
    rw [List.map_append, List.map_fst_zip (by omega), List.filter_append, List.filter_eq_self.mpr hab]
    rfl
  · show look s (some m0.utt) = _
    unfold look
    simp only [k2]
    rw [hh]
    rfl

/-- 560 bytes in two pieces are heard as "hi" by a program with the model of `Verif.MainExample`. -/
theorem Ex.hi : ∃ tr s a ll, Ran Main.Ex.mach Main.Ex.world tr s ∧ (Call.sttInit [100, 47, 99], Ret.ptr (some 0)) ∈ tr ∧
    (Call.uttInit (some 0) ⟨1, 16000, 8 * 1⟩, Ret.ptr (some a)) ∈ tr ∧
    Fed a [(Stt.toyMem 1 7, List.replicate 300 3), (Stt.toyMem 2 9, List.replicate 260 3)] (fun _ => 1) tr ∧
    step Main.Ex.mach Main.Ex.world s (.look (some a)) = .ok (.text [104, 105] ll, s) := by
  obtain ⟨u, h1, h2⟩ := Main.Ex.hears_hi
    [(Stt.toyMem 1 7, List.replicate 300 3), (Stt.toyMem 2 9, List.replicate 260 3)]
    (by
      intro p hp
      simp only [List.mem_cons, List.not_mem_nil, or_false] at hp
      rcases hp with rfl | rfl <;> decide +kernel)
    (by decide +kernel)
  obtain ⟨h, c, hl⟩ := Main.Ex.loaded
  obtain ⟨tr, s, a, k1, k2, k3, k4, k5⟩ := C83_completes hl Main.Ex.recogniser_self h1 (hyp := [104, 105])
    (by rw [h2]; rfl)
  exact ⟨tr, s, a, _, k1, k2, k3, k4, k5⟩

/-- The theorems for it. -/
example : (∃ ids ws, (∃ r, IsRec Main.Ex.mach Main.Ex.world Main.Ex.model r ∧
      Hears r Nnet.toyVecMat 1 (List.replicate 560 3) ids) ∧ ws.length = ids.length ∧ [104, 105] = join [32] ws) ∧
    ∀ junk, Main.main Main.Ex.mach Main.Ex.world junk [[100, 47, 99], [97, 46, 119, 97, 118]] =
      ⟨[.line [104, 105]], .ok ()⟩ := by
  obtain ⟨tr, s, a, ll, k1, k2, k3, k4, k5⟩ := Ex.hi
  have hds : ∀ q ∈ [(Stt.toyMem 1 7, List.replicate 300 3), (Stt.toyMem 2 9, List.replicate 260 (3 : UInt8))],
      q.2.length < 536870500 := by
    intro p hp
    simp only [List.mem_cons, List.not_mem_nil, or_false] at hp
    rcases hp with rfl | rfl <;> decide +kernel
  constructor
  · obtain ⟨r, hr, h⟩ := C83_words Main.Ex.mach Main.Ex.world _ _ _ Main.Ex.model Main.Ex.conf_file Main.Ex.conf_ok
      Main.Ex.installed Main.Ex.model_ok Nnet.toyVecMat 80 80 Main.Ex.fits
    obtain ⟨ids, ws, g1, g2, _, g4⟩ := h tr s s 0 a 1 _ _ _ _ k1 k2 k3 k4 hds k5
    have e : ([(Stt.toyMem 1 7, List.replicate 300 3), (Stt.toyMem 2 9, List.replicate 260 (3 : UInt8))].map
      Prod.snd).flatten = List.replicate 560 3 := by
      show List.replicate 300 (3 : UInt8) ++ (List.replicate 260 3 ++ []) = _
      decide +kernel
    rw [e] at g1
    exact ⟨ids, ws, ⟨r, hr, g1⟩, g2, g4⟩
  · intro junk
    refine C83_program Main.Ex.mach Main.Ex.world _ _ _ Main.Ex.model Main.Ex.conf_file Main.Ex.conf_ok
      Main.Ex.installed Main.Ex.model_ok Nnet.toyVecMat 80 80 Main.Ex.fits tr s s 0 a 1 _ _ _ _ k1 k2 k3 k4 hds k5
      [97, 46, 119, 97, 118] ⟨[97], rfl⟩ (Main.Ex.header 48 2 ++ List.replicate 560 3) rfl ?_ junk
    have := Main.Ex.header_ok 48 2 (List.replicate 560 3)
    have e : ([(Stt.toyMem 1 7, List.replicate 300 3), (Stt.toyMem 2 9, List.replicate 260 (3 : UInt8))].map
      Prod.snd).flatten = List.replicate 560 3 := by
      show List.replicate 300 (3 : UInt8) ++ (List.replicate 260 3 ++ []) = _
      decide +kernel
    rw [e]
    exact this

end Verif.Api
