import Verif.ApiAlone
import Verif.MainExample

/-!
# C82: recognisers and utterances do not disturb each other
-/

namespace Verif.Api

open Verif Verif.Text Verif.Api.Spec

/-! ## Programs for the examples -/

/-- The model directory of `Verif.MainExample`. -/
def Ex.dir : Str := [100, 47, 99]

/-- A call with some bytes. -/
def Ex.feed (a : Nat) (bytes : List UInt8) : Call Int := .process (some a) (Stt.toyMem 1 7) (some bytes) bytes.length

/-- Two utterances of one recogniser, at 5 and 9, used in turn; the second is given no data once, which is an error. -/
def Ex.two : List (Call Int) :=
  [.sttInit Ex.dir, .uttInit (some 0) Stt.toyFormat, .uttInit (some 0) Stt.toyFormat, Ex.feed 5 [1, 2, 3],
    Ex.feed 9 [], Ex.feed 5 [4], Ex.feed 9 [4], .look (some 5), .lastError]

/-- What the program gets. -/
def Ex.answers : List (Ret Int) :=
  [.ptr (some 0), .ptr (some 5), .ptr (some 9), .code 3, .code (-1), .code 1, .code 1, .text [] 0,
    .message (.status .runtime)]

/-- The end of both utterances and of the recogniser, the latter first; it is destroyed twice. -/
def Ex.tidy : List (Call Int) :=
  [.sttDestroy (some 0), .look (some 5), .uttDestroy (some 9), .uttDestroy (some 5), .sttDestroy (some 0)]

theorem Ex.ranOf {cs : List (Call Int)} {xs : List (Ret Int)}
    (h : (run Main.Ex.mach Main.Ex.world .start cs).map Prod.fst = .ok xs) :
    ∃ s, Ran Main.Ex.mach Main.Ex.world (cs.zip xs) s := by
  cases hr : run Main.Ex.mach Main.Ex.world .start cs with
  | error f => rw [hr] at h; cases h
  | ok q =>
    obtain ⟨ys, s⟩ := q
    rw [hr] at h
    replace h : Except.ok ys = Except.ok xs := h
    injection h with h
    subst h
    exact ⟨s, run_ran .nil hr⟩

theorem Ex.ran : ∃ s, Ran Main.Ex.mach Main.Ex.world (Ex.two.zip Ex.answers) s := Ex.ranOf (by decide +kernel)

/-- The same, and then the recogniser is destroyed. -/
def Ex.orphan : List (Call Int × Ret Int) :=
  (Ex.two ++ [Call.sttDestroy (some 0)]).zip (Ex.answers ++ [Ret.done])

theorem Ex.ranOrphan : ∃ s, Ran Main.Ex.mach Main.Ex.world Ex.orphan s :=
  Ex.ranOf (cs := Ex.two ++ [Call.sttDestroy (some 0)]) (xs := Ex.answers ++ [Ret.done]) (by decide +kernel)

/-- The same, and then everything is destroyed. -/
def Ex.all : List (Call Int × Ret Int) :=
  (Ex.two ++ Ex.tidy).zip (Ex.answers ++ [Ret.done, Ret.text [] 0, Ret.done, Ret.done, Ret.done])

theorem Ex.ranTidy : ∃ s, Ran Main.Ex.mach Main.Ex.world Ex.all s :=
  Ex.ranOf (cs := Ex.two ++ Ex.tidy) (xs := Ex.answers ++ [Ret.done, Ret.text [] 0, Ret.done, Ret.done, Ret.done])
    (by decide +kernel)

/-- A program with one utterance. -/
def Ex.one : List (Call Int) :=
  [.sttInit Ex.dir, .uttInit (some 0) Stt.toyFormat, Ex.feed 5 [1, 2, 3], Ex.feed 5 [4], .look (some 5), .lastError]

/-- What it gets. -/
def Ex.oneAnswers : List (Ret Int) :=
  [.ptr (some 0), .ptr (some 5), .code 3, .code 1, .text [] 0, .message .none]

theorem Ex.ranOne : ∃ s, Ran Main.Ex.mach Main.Ex.world (Ex.one.zip Ex.oneAnswers) s := Ex.ranOf (by decide +kernel)

variable {G F D : Type} {mach : Main.Machine G F D} {w : App.World G}

/-! ## The theorems -/

/-- Whatever else a program does with the library, what it sees of one utterance is what a program sees that has only this
utterance. -/
theorem C82_alone {tr : List (Call F × Ret F)} {s : Session G F} (h : Ran mach w tr s) {p a : Nat} {f : Pcm.Format}
    (hm : (Call.uttInit (some p) f, Ret.ptr (some a)) ∈ tr) :
    ∃ name b t, (Call.sttInit name, Ret.ptr (some p)) ∈ tr ∧ Ran mach w (alone name f b a tr) t := by
  obtain ⟨name, b, t, h1, h2, _⟩ := ran_alone h hm
  exact ⟨name, b, t, h1, h2⟩

/-- Two utterances: what is seen of the first is three calls. -/
example : ∃ name b t, (Call.sttInit name, Ret.ptr (some 0)) ∈ Ex.two.zip Ex.answers ∧
    Ran Main.Ex.mach Main.Ex.world (alone name Stt.toyFormat b 5 (Ex.two.zip Ex.answers)) t ∧
    (alone name Stt.toyFormat b 5 (Ex.two.zip Ex.answers)).map Prod.snd =
      [.ptr (some 0), .ptr (some b), .code 3, .code 1, .text [] 0] := by
  obtain ⟨s, h⟩ := Ex.ran
  obtain ⟨name, b, t, h1, h2⟩ := C82_alone h (p := 0) (a := 5) (f := Stt.toyFormat) (.tail _ (.head _))
  exact ⟨name, b, t, h1, h2, rfl⟩

/-- The same calls get the same answers: two utterances in two programs, of the same model directory and the same format,
used in the same way.  Nothing is said about the other calls of the two programs. -/
theorem C82_interleave {tr1 tr2 : List (Call F × Ret F)} {s1 s2 : Session G F} (h1 : Ran mach w tr1 s1)
    (h2 : Ran mach w tr2 s2) {name : Str} {p1 p2 a1 a2 : Nat} {f : Pcm.Format}
    (n1 : (Call.sttInit name, Ret.ptr (some p1)) ∈ tr1) (n2 : (Call.sttInit name, Ret.ptr (some p2)) ∈ tr2)
    (m1 : (Call.uttInit (some p1) f, Ret.ptr (some a1)) ∈ tr1) (m2 : (Call.uttInit (some p2) f, Ret.ptr (some a2)) ∈ tr2)
    (hc : (tr1.filter fun q => About a1 q.1).map (fun q => for' 0 q.1) =
      (tr2.filter fun q => About a2 q.1).map (fun q => for' 0 q.1)) :
    (tr1.filter fun q => About a1 q.1).map Prod.snd = (tr2.filter fun q => About a2 q.1).map Prod.snd := by
  obtain ⟨name1, b1, t1, k1, r1, _⟩ := ran_alone h1 m1
  obtain ⟨name2, b2, t2, k2, r2, _⟩ := ran_alone h2 m2
  cases made_once h1 k1 n1
  cases made_once h2 k2 n2
  obtain ⟨_, q1⟩ := ran_prefix (tr := [(.sttInit name, .ptr (some 0)), (.uttInit (some 0) f, .ptr (some b1))]) r1
  obtain ⟨_, q2⟩ := ran_prefix (tr := [(.sttInit name, .ptr (some 0)), (.uttInit (some 0) f, .ptr (some b2))]) r2
  have hb := (ran_det q1 q2 rfl).1
  have hb : b1 = b2 := by injection hb with _ hb; injection hb with hb; injection hb with _ hb; injection hb with hb; injection hb
  subst hb
  have hcalls : ((tr1.filter fun q => About a1 q.1).map fun p => (for' b1 p.1, p.2)).map Prod.fst =
      ((tr2.filter fun q => About a2 q.1).map fun p => (for' b1 p.1, p.2)).map Prod.fst := by
    have := congrArg (List.map (for' b1)) hc
    simpa [Function.comp_def, for_for] using this
  have := (ran_det r1 r2 (by unfold alone; rw [List.map_cons, List.map_cons, hcalls]; rfl)).1
  have := congrArg (fun l => (l.map Prod.snd).drop 2) this
  simpa [alone, Function.comp_def] using this

/-- The program with one utterance and the program with two. -/
example : (((Ex.two.zip Ex.answers).filter fun q => About 5 q.1).map Prod.snd) = [.code 3, .code 1, .text [] 0] := by
  obtain ⟨s1, h1⟩ := Ex.ran
  obtain ⟨s2, h2⟩ := Ex.ranOne
  exact C82_interleave h1 h2 (name := Ex.dir) (p1 := 0) (p2 := 0) (a1 := 5) (a2 := 5) (f := Stt.toyFormat) (.head _)
    (.head _) (.tail _ (.head _)) (.tail _ (.head _)) rfl

/-- The next call, too, gives what it gives alone, be it an answer or a fault, as long as the recogniser is not
destroyed. -/
theorem C82_next {tr : List (Call F × Ret F)} {s : Session G F} (h : Ran mach w tr s) {p a : Nat} {f : Pcm.Format}
    (hm : (Call.uttInit (some p) f, Ret.ptr (some a)) ∈ tr) (hd : ∀ x, (Call.uttDestroy (some a), x) ∉ tr)
    (hp : ∀ x, (Call.sttDestroy (some p), x) ∉ tr) :
    ∃ name b t, (Call.sttInit name, Ret.ptr (some p)) ∈ tr ∧ Ran mach w (alone name f b a tr) t ∧
      ∀ c, About a c = true → (step mach w s c).map Prod.fst = (step mach w t (for' b c)).map Prod.fst := by
  obtain ⟨name, b, t, h1, h2, hl, r, self, m, u, e1, e2, e3, e4, e5⟩ := ran_alone h hm
  refine ⟨name, b, t, h1, h2, ?_⟩
  intro c hc
  obtain ⟨x, hx⟩ := (ran_inv h).uttKept _ _ _ hm hd
  obtain ⟨rfl, rfl⟩ := e4 x hx
  obtain ⟨self', hs, h0, h0', c0, hl0⟩ := ran_live h h1 hp
  have hr : mach.recogniser self' = some r := by
    rcases e5 self' hs with hr | rfl
    · exact hr
    · rcases App.init_after hl0 with ⟨e, _⟩ | ⟨self1, conf, e, _, _, _, hcomp⟩
      · cases e
      · injection e with e
        injection e with _ e
        obtain ⟨_, e'⟩ := hcomp.fst
        rw [← e] at e'
        cases e'
  obtain ⟨g, g1, _⟩ := step_use (mach := mach) w hc hx hs hr
  obtain ⟨g', g1', _⟩ := step_use (mach := mach) w (about_for a b hc) e3 e1 e2
  rw [g1, g1', useUtt_for r _ hc]
  cases useUtt r x.data c with
  | error _ => rfl
  | ok _ => rfl

example : ∃ s name b t, Ran Main.Ex.mach Main.Ex.world (Ex.two.zip Ex.answers) s ∧
    Ran Main.Ex.mach Main.Ex.world (alone name Stt.toyFormat b 5 (Ex.two.zip Ex.answers)) t ∧
    (step Main.Ex.mach Main.Ex.world s (.endOfStream (some 5) (fun _ => 1))).map Prod.fst =
      (step Main.Ex.mach Main.Ex.world t (.endOfStream (some b) (fun _ => 1))).map Prod.fst := by
  obtain ⟨s, h⟩ := Ex.ran
  obtain ⟨name, b, t, _, h2, h3⟩ := C82_next h (p := 0) (a := 5) (f := Stt.toyFormat) (.tail _ (.head _))
    (by intro x; simp [Ex.two, Ex.answers, Ex.feed]) (by intro x; simp [Ex.two, Ex.answers, Ex.feed])
  exact ⟨s, name, b, t, h, h2, h3 (.endOfStream (some 5) (fun _ => 1)) rfl⟩

/-- After the recogniser was destroyed, the utterance can still be looked at; data is taken only as long as it makes no
whole sample; anything else is undefined. -/
theorem C82_orphan {tr : List (Call F × Ret F)} {s : Session G F} (h : Ran mach w tr s) {p a : Nat} {f : Pcm.Format}
    (hm : (Call.uttInit (some p) f, Ret.ptr (some a)) ∈ tr) (hd : ∀ x, (Call.uttDestroy (some a), x) ∉ tr) {y : Ret F}
    (hp : (Call.sttDestroy (some p), y) ∈ tr) :
    ∃ name b t, (Call.sttInit name, Ret.ptr (some p)) ∈ tr ∧ Ran mach w (alone name f b a tr) t ∧
      (step mach w s (.look (some a))).map Prod.fst = (step mach w t (.look (some b))).map Prod.fst ∧
      (∀ fill, step mach w s (.endOfStream (some a) fill) = .error .ub) ∧
      ∀ mem data size n t', step mach w t (.process (some b) mem data size) = .ok (.code n, t') →
        (n ≤ 0 → ∃ s', step mach w s (.process (some a) mem data size) = .ok (.code n, s')) ∧
        (0 < n → step mach w s (.process (some a) mem data size) = .error .ub) := by
  obtain ⟨name, b, t, h1, h2, hl, r, self, m, u, e1, e2, e3, e4, e5⟩ := ran_alone h hm
  obtain ⟨x, hx⟩ := (ran_inv h).uttKept _ _ _ hm hd
  obtain ⟨rfl, rfl⟩ := e4 x hx
  have hs := (ran_inv h).sttGone _ _ hp
  refine ⟨name, b, t, h1, h2, ?_, ?_, ?_⟩
  · show (look s (some a)).map Prod.fst = (look t (some b)).map Prod.fst
    unfold look
    simp only [hx, e3]
    cases Main.fromC x.data.back.hyp with
    | error _ => rfl
    | ok _ => rfl
  · intro fill
    show endOfStream mach s (some a) fill = _
    unfold endOfStream
    simp only [hx, hs, recogniser_empty]
  · intro mem data size n t' ht
    replace ht : process mach t (some b) mem data size = _ := ht
    show (_ → ∃ s', process mach s (some a) mem data size = _) ∧ (_ → process mach s (some a) mem data size = _)
    unfold process at ht ⊢
    simp only [hx, hs, recogniser_empty, e3, e1, e2, processApi_ready] at ht ⊢
    unfold processOrphan
    rw [recogniser_conv e2] at ht
    cases hq : x.data.reader.process mach.conv data size with
    | error e =>
      rw [hq] at ht
      cases e with
      | fault f => cases ht
      | status c =>
        cases ht
        exact ⟨fun _ => ⟨_, rfl⟩, fun hn => absurd (show (0 : Int) < -1 from hn) (by decide)⟩
    | ok z =>
      obtain ⟨xs, reader⟩ := z
      rw [hq] at ht
      simp only at ht ⊢
      cases hb : Stt.afterSamples r mem ⟨reader, x.data.wave, x.data.back⟩ xs with
      | error f => rw [hb] at ht; cases ht
      | ok u' =>
        rw [hb] at ht
        cases ht
        refine ⟨?_, ?_⟩
        · intro hn
          have : xs.length = 0 := by omega
          rw [if_pos this, this]
          exact ⟨_, rfl⟩
        · intro hn
          rw [if_neg (by omega)]

example : ∃ s, Ran Main.Ex.mach Main.Ex.world Ex.orphan s ∧
    step Main.Ex.mach Main.Ex.world s (.endOfStream (some 5) (fun _ => 1)) = .error .ub := by
  obtain ⟨s, h⟩ := Ex.ranOrphan
  obtain ⟨_, _, _, _, _, _, h3, _⟩ := C82_orphan h (p := 0) (a := 5) (f := Stt.toyFormat) (y := .done)
    (.tail _ (.head _)) (by intro x; simp [Ex.two, Ex.answers, Ex.feed, Ex.orphan]) (by simp [Ex.two, Ex.answers, Ex.feed, Ex.orphan])
  exact ⟨s, h, h3 _⟩

/-- The loss of the recogniser is seen: a sample that alone is taken is undefined. -/
theorem C82_orphan_feed : ∃ s, Ran Main.Ex.mach Main.Ex.world Ex.orphan s ∧
    step Main.Ex.mach Main.Ex.world s (Ex.feed 5 [4]) = .error .ub := by
  have hk : (run Main.Ex.mach Main.Ex.world .start ((Ex.two ++ [.sttDestroy (some 0)]) ++ [Ex.feed 5 [4]])).map Prod.fst =
      .error .ub := by decide +kernel
  have hr : (run Main.Ex.mach Main.Ex.world .start (Ex.two ++ [.sttDestroy (some 0)])).map Prod.fst =
      .ok (Ex.answers ++ [.done]) := by decide +kernel
  rw [run_snoc] at hk
  cases hs : run Main.Ex.mach Main.Ex.world .start (Ex.two ++ [.sttDestroy (some 0)]) with
  | error f => rw [hs] at hr; cases hr
  | ok q =>
    obtain ⟨xs, s⟩ := q
    rw [hs] at hr hk
    replace hr : Except.ok xs = Except.ok (Ex.answers ++ [.done]) := hr
    injection hr with hr
    subst hr
    refine ⟨s, run_ran .nil hs, ?_⟩
    rw [ok_bind] at hk
    cases hf : step Main.Ex.mach Main.Ex.world s (Ex.feed 5 [4]) with
    | error f => rw [hf] at hk; cases hk; rfl
    | ok z => rw [hf] at hk; cases hk

/-- A destroyed utterance cannot be used, nor destroyed again; of a destroyed recogniser no utterance can be made, and
destroying it again frees nothing. -/
theorem C82_destroyed {tr : List (Call F × Ret F)} {s : Session G F} (h : Ran mach w tr s) :
    (∀ a y, (Call.uttDestroy (some a), y) ∈ tr →
      (∀ c, About a c = true → step mach w s c = .error .ub) ∧ step mach w s (.uttDestroy (some a)) = .error .ub) ∧
    (∀ p y, (Call.sttDestroy (some p), y) ∈ tr →
      (∀ f, step mach w s (.uttInit (some p) f) = .error .ub) ∧
      ∃ s', step mach w s (.sttDestroy (some p)) = .ok (.done, s') ∧ s'.heap.live = s.heap.live) := by
  have hi := ran_inv h
  constructor
  · intro a y hy
    have hx : s.utts.get a = none := by
      cases hx : s.utts.get a with
      | none => rfl
      | some x => exact absurd hy ((hi.uttMade _ (get_mem hx)).2 y)
    refine ⟨fun c hc => about_none hc hx, ?_⟩
    show uttDestroy s (some a) = _
    unfold uttDestroy
    simp only [hx]
  · intro p y hy
    have hs := hi.sttGone _ _ hy
    refine ⟨?_, ?_⟩
    · intro f
      show uttInit mach s (some p) f = _
      unfold uttInit
      simp only [hs]
      rfl
    · refine ⟨{ s with stts := s.stts.put p .empty }, ?_, rfl⟩
      show sttDestroy s (some p) = _
      unfold sttDestroy
      simp only [hs]
      rfl

example : ∃ s, Ran Main.Ex.mach Main.Ex.world Ex.all s ∧
    step Main.Ex.mach Main.Ex.world s (Ex.feed 5 [4]) = .error .ub ∧
    step Main.Ex.mach Main.Ex.world s (.uttInit (some 0) Stt.toyFormat) = .error .ub := by
  obtain ⟨s, h⟩ := Ex.ranTidy
  obtain ⟨h1, h2⟩ := C82_destroyed h
  exact ⟨s, h, (h1 5 .done (by simp [Ex.two, Ex.answers, Ex.feed, Ex.tidy, Ex.all])).1 _ rfl,
    (h2 0 .done (by simp [Ex.two, Ex.answers, Ex.feed, Ex.tidy, Ex.all])).1 _⟩

/-- What was made and not destroyed can be destroyed, in any order: an utterance before or after its recogniser. -/
theorem C82_destroy {tr : List (Call F × Ret F)} {s : Session G F} (h : Ran mach w tr s) :
    (∀ q f a, (Call.uttInit q f, Ret.ptr (some a)) ∈ tr → (∀ x, (Call.uttDestroy (some a), x) ∉ tr) →
      ∃ s', step mach w s (.uttDestroy (some a)) = .ok (.done, s')) ∧
    (∀ name p, (Call.sttInit name, Ret.ptr (some p)) ∈ tr →
      ∃ s', step mach w s (.sttDestroy (some p)) = .ok (.done, s')) := by
  have hi := ran_inv h
  constructor
  · intro q f a hm hd
    obtain ⟨x, hx⟩ := hi.uttKept _ _ _ hm hd
    obtain ⟨heap, hh⟩ := uttDestroy_possible hi hx
    refine ⟨{ s with heap := heap, utts := s.utts.del a }, ?_⟩
    show uttDestroy s (some a) = _
    unfold uttDestroy
    simp only [hx, hh]
    rfl
  · intro name p hm
    obtain ⟨self, hs⟩ := hi.sttKept _ _ hm
    obtain ⟨heap, hh⟩ := destroy_possible hi hs
    refine ⟨{ s with heap := heap, stts := s.stts.put p .empty }, ?_⟩
    show sttDestroy s (some p) = _
    unfold sttDestroy
    simp only [hs, hh]
    rfl

example : ∃ s s', Ran Main.Ex.mach Main.Ex.world Ex.orphan s ∧
    step Main.Ex.mach Main.Ex.world s (.uttDestroy (some 5)) = .ok (.done, s') := by
  obtain ⟨s, h⟩ := Ex.ranOrphan
  obtain ⟨s', h'⟩ := (C82_destroy h).1 (some 0) Stt.toyFormat 5 (.tail _ (.head _))
    (by intro x; simp [Ex.two, Ex.answers, Ex.feed, Ex.orphan])
  exact ⟨s, s', h, h'⟩

/-- If everything made was destroyed, one block is left for every `ce_stt_init` there was, and nothing else. -/
theorem C82_memory {tr : List (Call F × Ret F)} {s : Session G F} (h : Ran mach w tr s) (ht : Tidy tr) :
    s.heap.live.length = loads tr := by
  have hi := ran_inv h
  have hu : s.utts = [] := by
    cases hu : s.utts with
    | nil => rfl
    | cons q l =>
      obtain ⟨⟨q', f, hm⟩, hd⟩ := hi.uttMade q (hu ▸ List.mem_cons_self)
      obtain ⟨x, hx⟩ := ht.utts _ _ _ hm
      exact absurd hx (hd x)
  have hs : s.stts.flatMap (fun p => sttBlocks p.2) = [] := by
    rw [List.flatMap_eq_nil_iff]
    intro q hq
    obtain ⟨name, hm, _⟩ := hi.sttMade q hq
    obtain ⟨x, hx⟩ := ht.stts _ _ hm
    have := hi.sttGone _ _ hx
    rw [mem_get hi.sttKeys hq] at this
    injection this with this
    rw [this]
    exact sttBlocks_empty
  obtain ⟨leak, l1, l2⟩ := hi.blocks
  have := l2.length_eq
  rw [hs, hu] at this
  simp at this
  omega

/-- One recogniser, two utterances, all destroyed: one block is left. -/
example : ∃ s, Ran Main.Ex.mach Main.Ex.world Ex.all s ∧ s.heap.live.length = 1 := by
  obtain ⟨s, h⟩ := Ex.ranTidy
  refine ⟨s, h, C82_memory h ⟨?_, ?_⟩⟩
  · intro name p hm
    simp [Ex.two, Ex.answers, Ex.feed, Ex.tidy, Ex.all] at hm
    obtain ⟨_, rfl⟩ := hm
    exact ⟨.done, by simp [Ex.two, Ex.answers, Ex.feed, Ex.tidy, Ex.all]⟩
  · intro p f a hm
    simp [Ex.two, Ex.answers, Ex.feed, Ex.tidy, Ex.all] at hm
    rcases hm with ⟨_, rfl⟩ | ⟨_, rfl⟩ <;> exact ⟨.done, by simp [Ex.two, Ex.answers, Ex.feed, Ex.tidy, Ex.all]⟩

/-- A call that fails leaves a message, whatever the message was before. -/
theorem C82_failed {s s' : Session G F} {c : Call F} {x : Ret F} (h : step mach w s c = .ok (x, s'))
    (hx : x = .ptr none ∨ x = .code (-1) ∨ x = .format none) : s'.msg ≠ .none := by
  cases c with
  | sttInit name =>
    replace h : sttInit w s name = .ok (x, s') := h
    unfold sttInit at h
    obtain ⟨⟨p, heap, c⟩, hi, h⟩ := bind_ok h
    rcases App.init_after hi with ⟨rfl, ⟨e, rfl⟩, _⟩ | ⟨self, conf, rfl, rfl, _⟩
    · cases h; intro e; cases e
    · cases h; rcases hx with hx | hx | hx <;> cases hx
  | sttDestroy p =>
    replace h : sttDestroy s p = .ok (x, s') := h
    unfold sttDestroy at h
    split at h
    · cases h
    · split at h
      · cases h
      · obtain ⟨_, _, h⟩ := bind_ok h
        cases h
        rcases hx with hx | hx | hx <;> cases hx
  | uttInit p f =>
    replace h : uttInit mach s p f = .ok (x, s') := h
    unfold uttInit at h
    split at h
    · cases h
    · split at h
      · cases h
      · next self hg =>
        obtain ⟨⟨hd, msg⟩, h1, h⟩ := bind_ok h
        cases hr : mach.recogniser self with
        | none => rw [hr] at h1; cases h1
        | some r =>
          rw [hr] at h1
          have hmsg : (∀ r' u, hd ≠ .ready r' u) → msg ≠ .none := by
            intro hne
            unfold Stt.initApi at h1
            simp only at h1
            obtain ⟨d, _, h1⟩ := bind_ok h1
            split at h1
            · cases h1
            · cases h1; intro e; cases e
            · cases h1; exact absurd rfl (hne _ _)
          cases hd with
          | ready r' u =>
            obtain ⟨⟨m, heap⟩, _, h⟩ := bind_ok h
            cases m with
            | none => cases h
            | some m => cases h; rcases hx with hx | hx | hx <;> cases hx
          | null =>
            obtain ⟨⟨m, heap⟩, _, h⟩ := bind_ok h
            cases h
            exact hmsg (by intro r' u e; cases e)
          | noInternal _ _ =>
            obtain ⟨⟨m, heap⟩, _, h⟩ := bind_ok h
            cases h
            exact hmsg (by intro r' u e; cases e)
          | noRecognizer _ =>
            obtain ⟨⟨m, heap⟩, _, h⟩ := bind_ok h
            cases h
            exact hmsg (by intro r' u e; cases e)
  | uttDestroy u =>
    replace h : uttDestroy s u = .ok (x, s') := h
    unfold uttDestroy at h
    split at h
    · cases h
    · split at h
      · cases h
      · obtain ⟨_, _, h⟩ := bind_ok h
        cases h
        rcases hx with hx | hx | hx <;> cases hx
  | process u mem data size =>
    replace h : process mach s u mem data size = .ok (x, s') := h
    unfold process at h
    split at h
    · cases h; intro e; cases e
    · split at h
      · cases h
      · split at h
        · cases h
        · split at h
          · unfold processOrphan at h
            split at h
            · cases h
            · cases h; intro e; cases e
            · split at h
              · cases h; rcases hx with hx | hx | hx <;> cases hx
              · cases h
          · rw [processApi_ready] at h
            split at h
            · cases h
            · cases h; intro e; cases e
            · obtain ⟨⟨_, hd, msg⟩, h1, h⟩ := bind_ok h
              obtain ⟨_, _, h1⟩ := bind_ok h1
              cases h1
              cases h
              rcases hx with hx | hx | hx
              · cases hx
              · injection hx with hx
                exact absurd hx (by omega)
              · cases hx
  | endOfStream u fill =>
    replace h : endOfStream mach s u fill = .ok (x, s') := h
    unfold endOfStream at h
    split at h
    · cases h
    · split at h
      · cases h
      · split at h
        · cases h
        · split at h
          · cases h
          · rw [Stt.end_ready] at h
            obtain ⟨⟨hd, msg⟩, h1, h⟩ := bind_ok h
            obtain ⟨_, _, h1⟩ := bind_ok h1
            cases h1
            cases h
            rcases hx with hx | hx | hx <;> cases hx
  | look u =>
    replace h : look s u = .ok (x, s') := h
    unfold look at h
    split at h
    · cases h
    · split at h
      · cases h
      · obtain ⟨_, _, h⟩ := bind_ok h
        cases h
        rcases hx with hx | hx | hx <;> cases hx
  | readHeader file =>
    replace h : readHeader s file = .ok (x, s') := h
    unfold readHeader at h
    split at h
    · cases h
    · cases h; intro e; cases e
    · cases h; rcases hx with hx | hx | hx <;> cases hx
  | lastError => cases h; rcases hx with hx | hx | hx <;> cases hx

/-- A file that is too short for a header. -/
example (s : Session Unit Int) : ∃ s', step Main.Ex.mach Main.Ex.world s (.readHeader [82]) = .ok (.format none, s') ∧
    s'.msg ≠ .none := by
  have h : step Main.Ex.mach Main.Ex.world s (.readHeader [82]) = .ok (.format none, { s with msg := .status .io }) := rfl
  exact ⟨_, h, C82_failed h (.inr (.inr rfl))⟩

/-- A call that does not fail leaves the message of the last call that failed, whichever utterance that was about. -/
theorem C82_message {s s' : Session G F} {c : Call F} {x : Ret F} (h : step mach w s c = .ok (x, s'))
    (hx : x ≠ .ptr none ∧ x ≠ .code (-1) ∧ x ≠ .format none) : s'.msg = s.msg := by
  cases c with
  | sttInit name =>
    replace h : sttInit w s name = .ok (x, s') := h
    unfold sttInit at h
    obtain ⟨⟨p, heap, c⟩, hi, h⟩ := bind_ok h
    rcases App.init_after hi with ⟨rfl, ⟨e, rfl⟩, _⟩ | ⟨self, conf, rfl, rfl, _⟩
    · cases h; exact absurd rfl hx.1
    · cases h; rfl
  | sttDestroy p =>
    replace h : sttDestroy s p = .ok (x, s') := h
    unfold sttDestroy at h
    split at h
    · cases h
    · split at h
      · cases h
      · obtain ⟨_, _, h⟩ := bind_ok h
        cases h
        rfl
  | uttInit p f =>
    replace h : uttInit mach s p f = .ok (x, s') := h
    unfold uttInit at h
    split at h
    · cases h
    · split at h
      · cases h
      · next self hg =>
        obtain ⟨⟨hd, msg⟩, h1, h⟩ := bind_ok h
        cases hr : mach.recogniser self with
        | none => rw [hr] at h1; cases h1
        | some r =>
          rw [hr] at h1
          cases hd with
          | ready r' u =>
            obtain ⟨_, e, _⟩ := initApi_ready h1
            obtain ⟨⟨m, heap⟩, _, h⟩ := bind_ok h
            cases m with
            | none => cases h
            | some m => cases h; exact e
          | null =>
            obtain ⟨⟨m, heap⟩, _, h⟩ := bind_ok h
            cases h
            exact absurd rfl hx.1
          | noInternal _ _ =>
            obtain ⟨⟨m, heap⟩, _, h⟩ := bind_ok h
            cases h
            exact absurd rfl hx.1
          | noRecognizer _ =>
            obtain ⟨⟨m, heap⟩, _, h⟩ := bind_ok h
            cases h
            exact absurd rfl hx.1
  | uttDestroy u =>
    replace h : uttDestroy s u = .ok (x, s') := h
    unfold uttDestroy at h
    split at h
    · cases h
    · split at h
      · cases h
      · obtain ⟨_, _, h⟩ := bind_ok h
        cases h
        rfl
  | process u mem data size =>
    replace h : process mach s u mem data size = .ok (x, s') := h
    unfold process at h
    split at h
    · cases h; exact absurd rfl hx.2.1
    · split at h
      · cases h
      · split at h
        · cases h
        · split at h
          · unfold processOrphan at h
            split at h
            · cases h
            · cases h; exact absurd rfl hx.2.1
            · split at h
              · cases h; rfl
              · cases h
          · rw [processApi_ready] at h
            split at h
            · cases h
            · cases h; exact absurd rfl hx.2.1
            · obtain ⟨⟨_, hd, msg⟩, h1, h⟩ := bind_ok h
              obtain ⟨_, _, h1⟩ := bind_ok h1
              cases h1
              cases h
              rfl
  | endOfStream u fill =>
    replace h : endOfStream mach s u fill = .ok (x, s') := h
    unfold endOfStream at h
    split at h
    · cases h
    · split at h
      · cases h
      · split at h
        · cases h
        · split at h
          · cases h
          · rw [Stt.end_ready] at h
            obtain ⟨⟨hd, msg⟩, h1, h⟩ := bind_ok h
            obtain ⟨_, _, h1⟩ := bind_ok h1
            cases h1
            cases h
            rfl
  | look u =>
    replace h : look s u = .ok (x, s') := h
    unfold look at h
    split at h
    · cases h
    · split at h
      · cases h
      · obtain ⟨_, _, h⟩ := bind_ok h
        cases h
        rfl
  | readHeader file =>
    replace h : readHeader s file = .ok (x, s') := h
    unfold readHeader at h
    split at h
    · cases h
    · cases h; exact absurd rfl hx.2.2
    · cases h; rfl
  | lastError => cases h; rfl

/-- Destroying an utterance does not fail. -/
example {s : Session Unit Int} (h : Ran Main.Ex.mach Main.Ex.world Ex.orphan s) :
    ∃ s', step Main.Ex.mach Main.Ex.world s (.uttDestroy (some 5)) = .ok (.done, s') ∧ s'.msg = s.msg := by
  obtain ⟨s', h'⟩ := (C82_destroy h).1 (some 0) Stt.toyFormat 5 (.tail _ (.head _))
    (by intro x; simp [Ex.two, Ex.answers, Ex.feed, Ex.orphan])
  exact ⟨s', h', C82_message h' ⟨(by intro e; cases e), (by intro e; cases e), (by intro e; cases e)⟩⟩

theorem last_error {s0 s : Session G F} {m : Stt.Msg} (h : step mach w s0 .lastError = .ok (.message m, s)) :
    step mach w s .lastError = .ok (.message m, s) := by
  replace h : (Except.ok (.message s0.msg, s0) : Exec (Ret F × Session G F)) = .ok (.message m, s) := h
  injection h with h
  injection h with h1 h2
  subst h2
  rw [← h1]
  rfl

/-- The message is shared: the two programs do the same with the utterance at 5, ask for the last error, and are told of
different ones. -/
theorem C82_message_shared : ∃ s1 s2 tr1 tr2, Ran Main.Ex.mach Main.Ex.world tr1 s1 ∧ Ran Main.Ex.mach Main.Ex.world tr2 s2 ∧
    (tr1.filter fun q => About 5 q.1) = (tr2.filter fun q => About 5 q.1) ∧
    step Main.Ex.mach Main.Ex.world s1 .lastError = .ok (.message (.status .runtime), s1) ∧
    step Main.Ex.mach Main.Ex.world s2 .lastError = .ok (.message .none, s2) := by
  obtain ⟨s1, h1⟩ := Ex.ran
  obtain ⟨s2, h2⟩ := Ex.ranOne
  refine ⟨s1, s2, _, _, h1, h2, rfl, ?_, ?_⟩
  · obtain ⟨s0, _, e⟩ := ran_snoc (tr := (Ex.two.zip Ex.answers).dropLast)
      (q := (.lastError, .message (.status .runtime))) h1
    exact last_error e
  · obtain ⟨s0, _, e⟩ := ran_snoc (tr := (Ex.one.zip Ex.oneAnswers).dropLast) (q := (.lastError, .message .none)) h2
    exact last_error e

end Verif.Api
