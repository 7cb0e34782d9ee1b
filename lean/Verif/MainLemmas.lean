import Verif.LmValue
import Verif.InitProps
import Verif.PcmProps

/-!
# Lemmas about the program
-/

namespace Verif.Main

open Verif Verif.Text Verif.App.Spec Verif.Main.Spec

variable {G F D : Type}

/-! ## Runs -/

theorem lift_ok {α : Type} (a : α) : Prog.lift (.ok a) = ⟨[], .ok a⟩ := rfl

theorem bind_ok_nil {α β : Type} (a : α) (f : α → Prog β) : (⟨[], .ok a⟩ : Prog α).bind f = f a := rfl

theorem bind_ok_out {α β : Type} (o : List Out) (a : α) (f : α → Prog β) :
    (⟨o, .ok a⟩ : Prog α).bind f = ⟨o ++ (f a).out, (f a).res⟩ := rfl

theorem bind_error {α β : Type} (o : List Out) (e : End) (f : α → Prog β) :
    (⟨o, .error e⟩ : Prog α).bind f = ⟨o, .error e⟩ := rfl

theorem lift_eq_ok {α : Type} {x : Exec α} {o : List Out} {a : α} : Prog.lift x = ⟨o, .ok a⟩ ↔ o = [] ∧ x = .ok a := by
  cases x with
  | ok b =>
    rw [lift_ok]
    constructor
    · intro h; injection h with h1 h2; exact ⟨h1.symm, by injection h2 with h2; rw [h2]⟩
    · rintro ⟨rfl, h⟩; injection h with h; rw [h]
  | error f =>
    constructor
    · intro h; injection h with h1 h2; cases h2
    · rintro ⟨_, h⟩; cases h

/-! ## The loop over the data -/

/-- The loop feeds the data in pieces of at most 1024 bytes, none of them empty. -/
theorem audioLoop_pieces (mem : Nat → Stt.Mem F) : ∀ (fuel i : Nat) (rest : List UInt8), rest.length + 2 ≤ fuel →
    ∃ cs : List (Stt.Mem F × List UInt8), (∀ p ∈ cs, p.2 ≠ [] ∧ p.2.length < 536870500) ∧
      (cs.map Prod.snd).flatten = rest ∧
      ∀ (h : Stt.Handle F D) (msg : Stt.Msg), audioLoop mem fuel i false rest h msg = Stt.feedApi cs h msg
  | 0, _, _, hf => absurd hf (by omega)
  | fuel + 1, i, rest, hf => by
    by_cases h0 : rest = []
    · subst h0
      exact ⟨[], by simp, rfl, fun h msg => rfl⟩
    have hpos : 0 < rest.length := List.length_pos_iff.mpr h0
    have htake : (rest.take 1024).length ≠ 0 := by rw [List.length_take]; omega
    have hne : rest.take 1024 ≠ [] := fun hc => htake (by rw [hc]; rfl)
    by_cases hs : rest.length < 1024
    · refine ⟨[(mem i, rest)], ?_, by simp, fun h msg => ?_⟩
      · intro p hp
        rw [List.mem_singleton] at hp
        subst hp
        exact ⟨h0, by show rest.length < _; omega⟩
      · have ht : rest.take 1024 = rest := List.take_of_length_le (by omega)
        unfold audioLoop Stt.feedApi
        simp only [Bool.false_eq_true, if_false]
        rw [if_neg htake, ht, decide_eq_true hs]
        cases hp : Stt.processApi (mem i) h msg (some rest) rest.length with
        | error f => rfl
        | ok x =>
          obtain ⟨n, h', msg'⟩ := x
          rw [ok_bind, ok_bind]
          cases fuel with
          | zero => omega
          | succ fuel => rfl
    · obtain ⟨cs, h1, h2, h3⟩ := audioLoop_pieces mem fuel (i + 1) (rest.drop 1024) (by rw [List.length_drop]; omega)
      have hl : (rest.take 1024).length = 1024 := by rw [List.length_take]; omega
      refine ⟨(mem i, rest.take 1024) :: cs, ?_, ?_, fun h msg => ?_⟩
      · intro p hp
        rcases List.mem_cons.mp hp with rfl | hp
        · exact ⟨hne, by show (rest.take 1024).length < _; omega⟩
        · exact h1 p hp
      · rw [List.map_cons, List.flatten_cons, h2]
        exact List.take_append_drop 1024 rest
      · unfold audioLoop Stt.feedApi
        simp only [Bool.false_eq_true, if_false]
        rw [if_neg htake]
        cases hp : Stt.processApi (mem i) h msg (some (rest.take 1024)) (rest.take 1024).length with
        | error f => rfl
        | ok x =>
          obtain ⟨n, h', msg'⟩ := x
          rw [ok_bind, ok_bind]
          simp only
          rw [decide_eq_false (by omega), h3]

/-- One file, behind its header, in terms of the interface: for any cut of the data. -/
theorem processData_iff {r : Stt.Rec F D} {vm : List F → List (List F) → List F} {e L R c wd : Nat}
    (S : Stt.Sound r vm e L R c wd) (junk : Junk F) (fmt : Pcm.Format) (data : List UInt8) (fill : Nat → UInt8)
    (ds : List (Stt.Mem F × List UInt8)) (hds : ∀ p ∈ ds, p.2 ≠ [] ∧ p.2.length < 536870500)
    (hbytes : (ds.map Prod.snd).flatten = data) (o : List Out) (t : Str) :
    processData (some r) junk fmt data = ⟨o, .ok t⟩ ↔ o = [] ∧
      ∃ u msg, Stt.recognise r fmt fill ds = .ok (.ready r u, msg) ∧ fromC u.back.hyp = .ok t := by
  obtain ⟨cs, h1, h2, h3⟩ := audioLoop_pieces (D := D) junk.piece (data.length + 2) 0 data (by omega)
  have key : ∀ x, Stt.recognise r fmt junk.last cs = .ok x ↔ Stt.recognise r fmt fill ds = .ok x :=
    Stt.C29_chunk_independence_partial S fmt junk.last fill cs ds h1 hds (by rw [h2, hbytes])
  have hred : ∀ x, (∃ u msg, Stt.recognise r fmt fill ds = .ok (.ready r u, msg) ∧ fromC u.back.hyp = .ok x) ↔
      ∃ u msg, Stt.recognise r fmt junk.last cs = .ok (.ready r u, msg) ∧ fromC u.back.hyp = .ok x := by
    intro x
    constructor
    · rintro ⟨u, msg, hu, hx⟩; exact ⟨u, msg, (key _).mpr hu, hx⟩
    · rintro ⟨u, msg, hu, hx⟩; exact ⟨u, msg, (key _).mp hu, hx⟩
  rw [hred]
  unfold processData Stt.recognise
  cases hi : Stt.initApi (some r) fmt .none with
  | error f =>
    constructor
    · intro h; injection h with _ h; cases h
    · rintro ⟨_, u, msg, h, _⟩; cases h
  | ok p =>
    obtain ⟨h, msg⟩ := p
    rw [lift_ok, bind_ok_nil]
    simp only [ok_bind]
    rcases Stt.init_good (L := L) (R := R) (c := c) hi with ⟨rfl, _⟩ | ⟨d, b, rfl, hw, _, rfl, Gd⟩
    · constructor
      · intro h; injection h with _ h; cases h
      · rintro ⟨_, u, m, h, _⟩
        exfalso
        cases cs with
        | nil => cases h
        | cons q qs => rw [Stt.feed_null (q :: qs) (by simp)] at h; cases h
    · simp only
      rw [lift_eq_ok]
      refine and_congr_right fun _ => ?_
      unfold runUtterance
      rw [h3]
      constructor
      · intro hh
        obtain ⟨⟨h', m'⟩, e1, hh⟩ := bind_ok hh
        obtain ⟨⟨h'', m''⟩, e2, hh⟩ := bind_ok hh
        obtain ⟨feats, back, _, _, rfl, rfl⟩ := (Stt.feed_stream S .none cs Gd h1 h' m').mp e1
        have e2 : Stt.endApi junk.last _ _ = _ := e2
        rw [Stt.end_ready] at e2
        obtain ⟨u', e3, e4⟩ := bind_ok e2
        cases e4
        refine ⟨u', .none, ?_, hh⟩
        rw [e1, ok_bind]
        simp only
        rw [Stt.end_ready, e3]
        rfl
      · rintro ⟨u, m, hh, hx⟩
        obtain ⟨⟨h', m'⟩, e1, hh⟩ := bind_ok hh
        rw [e1, ok_bind]
        simp only at hh ⊢
        rw [hh, ok_bind]
        exact hx

/-! ## The recogniser -/

theorem layerOf_full (g : Option Nat → F) (l : Nnet.Layer Nat) :
    layerOf g (Ser.Spec.full l) = valueLayer (fun x => g (some x)) l := by
  cases l with
  | linear W b =>
    simp only [Ser.Spec.full, layerOf, valueLayer, List.map_map]
    congr 1
    apply List.map_congr_left
    intro row _
    show ((row.map some).map g) = row.map fun x => g (some x)
    rw [List.map_map]
    rfl
  | batchNorm a b =>
    simp only [Ser.Spec.full, layerOf, valueLayer, List.map_map]
    rfl
  | _ => rfl

theorem symGet_iff {syms : List Str} {id : Int} {w : Str} : word? syms id = some w ↔ symGet syms id = .ok w := by
  constructor
  · exact symGet_some
  · intro h
    cases hw : word? syms id with
    | none => rw [symGet_none hw] at h; cases h
    | some v => rw [symGet_some hw] at h; cases h; rfl

theorem isLast_exists {α β : Type} [DecidableEq α] {ps : List (α × β)} {k : α} (h : k ∈ ps.map Prod.fst) :
    ∃ v, IsLast ps k v := by
  cases hl : lastOf ps k with
  | some v => exact ⟨v, lastOf_some.mp hl⟩
  | none =>
    obtain ⟨p, hp, rfl⟩ := List.mem_map.mp h
    exact absurd rfl (lastOf_none.mp hl p hp)

theorem isLast_mem {α β : Type} {ps : List (α × β)} {k : α} {v : β} (h : IsLast ps k v) : (k, v) ∈ ps := by
  obtain ⟨pre, post, rfl, _⟩ := h
  simp

/-- The words of the table are those of the symbol file. -/
theorem spells_iff {es : List SymEntry} (hes : ∀ e ∈ es, e.Ok ∧ GoodLine e.line e.eol) {t : Symbols}
    (ht : Consistent t (es.map fun e => (e.word, (e.id : Int)))) (id : Int) (word : Str) :
    word? t.words id = some word ↔ Spells es id word := by
  rw [symGet_iff]
  have hswap : (es.map fun e => (e.word, (e.id : Int))).map (fun p => (p.2, p.1)) = es.map fun e => ((e.id : Int), e.word) := by
    rw [List.map_map]
    rfl
  have hz : ∀ e ∈ es, 0 ∉ e.word := by
    intro e he h0
    apply (hes e he).2.noNul
    unfold SymEntry.line
    simp [h0]
  have hlast : ∀ v, IsLast (es.map fun e => ((e.id : Int), e.word)) id v → symGet t.words id = .ok v := by
    intro v hv
    have h1 := ht.word v id (by rw [hswap]; exact hv)
    obtain ⟨e, he, hev⟩ := List.mem_map.mp (isLast_mem hv)
    injection hev with _ hev
    rw [cstr_id (by rw [← hev]; exact hz e he)] at h1
    exact h1
  constructor
  · intro h
    by_cases hm : id ∈ (es.map fun e => ((e.id : Int), e.word)).map Prod.fst
    · obtain ⟨v, hv⟩ := isLast_exists hm
      rw [hlast v hv] at h
      cases h
      exact .inl hv
    · have hno : ∀ e ∈ es, (e.id : Int) ≠ id := by
        intro e he hc
        apply hm
        rw [List.map_map]
        exact List.mem_map.mpr ⟨e, he, hc⟩
      have hout : ¬ (id < 0 ∨ ∀ p ∈ es.map (fun e => (e.word, (e.id : Int))), p.2 < id) := by
        intro hc
        have := ht.outside id hc
        rw [show t.get id = symGet t.words id from rfl, h] at this
        cases this
      rw [not_or] at hout
      have hbig : ∃ e ∈ es, id < (e.id : Int) := by
        apply Classical.byContradiction
        intro hc
        apply hout.2
        intro p hp
        obtain ⟨e, he, rfl⟩ := List.mem_map.mp hp
        have h1 : ¬ id < (e.id : Int) := fun h => hc ⟨e, he, h⟩
        have h2 := hno e he
        simp only
        omega
      have hh := ht.hole id (by omega) (by
        intro p hp
        obtain ⟨e, he, rfl⟩ := List.mem_map.mp hp
        exact hno e he) (by
        obtain ⟨e, he, hlt⟩ := hbig
        exact ⟨_, List.mem_map.mpr ⟨e, he, rfl⟩, hlt⟩)
      rw [show t.get id = symGet t.words id from rfl, h] at hh
      cases hh
      exact .inr ⟨rfl, by omega, hno, hbig⟩
  · rintro (h | ⟨rfl, h0, hno, e, he, hlt⟩)
    · exact hlast word h
    · exact ht.hole id h0 (by
        intro p hp
        obtain ⟨e, he, rfl⟩ := List.mem_map.mp hp
        exact hno e he) ⟨_, List.mem_map.mpr ⟨e, he, rfl⟩, hlt⟩

/-- A loaded recogniser is the recogniser of its model. -/
theorem recogniser_holds (mach : Machine G F D) {w : App.World G} {s : App.Self G} {m : App.Spec.Model G}
    (hh : Holds w s m) (ho : m.Ok w) : ∃ r, mach.recogniser s = some r ∧ IsRec mach w m r := by
  obtain ⟨a1, e1⟩ := hh.fst
  obtain ⟨a2, e2⟩ := hh.am
  obtain ⟨a3, t, e3, hc, hb, he, hd⟩ := hh.symbols
  obtain ⟨a4, e4⟩ := hh.fbank
  have hsent : ∀ v ∈ m.symbols.map SymEntry.word, ∃ id, IsLast (m.symbols.map fun e => (e.word, (e.id : Int))) v id ∧
      t.getId v = id := by
    intro v hv
    obtain ⟨id, hid⟩ := isLast_exists (ps := m.symbols.map fun e => (e.word, (e.id : Int))) (k := v) (by
      rw [List.map_map]; exact hv)
    refine ⟨id, hid, ?_⟩
    rw [hc.id v id hid]
    obtain ⟨e, hem, hee⟩ := List.mem_map.mp (isLast_mem hid)
    injection hee with _ hee
    have := (ho.symbols e hem).1.small
    exact wrap32_of (by unfold InI32; omega)
  have hlm : ∃ lm, mach.lmOf s = some lm ∧ (match m.lm with
    | none => lm = none
    | some (u, t) => ∃ lm' bos eos, lm = some lm' ∧
      Answers mach.lm (u.map fun x => mach.word (some x)) (valueFst (fun x => mach.word (some x.toNat)) t) bos eos
        mach.lmFuel lm' ∧
      IsLast (m.symbols.map fun e => (e.word, (e.id : Int))) sentBegin bos ∧
      IsLast (m.symbols.map fun e => (e.word, (e.id : Int))) sentEnd eos) := by
    have h := hh.lm
    unfold Machine.lmOf
    cases hm : m.lm with
    | none =>
      simp only [hm] at h
      obtain ⟨_, _, hdel⟩ := h
      rw [hdel]
      exact ⟨none, rfl, rfl⟩
    | some p =>
      obtain ⟨u, tr⟩ := p
      simp only [hm] at h
      obtain ⟨⟨b1, l, g1, hl⟩, ⟨b2, g2⟩, b3, e, g3⟩ := h
      have hde := hd b3 e g3
      rw [g1, g2, g3]
      obtain ⟨_, _, _, _, o4, o5⟩ := ho.lm u tr hm
      refine ⟨_, rfl, _, e.1, e.2, rfl, deltaOf_answers mach u hl.data hl.bucket o4 o5 e.1 e.2, ?_, ?_⟩
      · obtain ⟨id, h1, h2⟩ := hsent _ ho.sents.1
        rw [hde, hb, h2]
        exact h1
      · obtain ⟨id, h1, h2⟩ := hsent _ ho.sents.2
        rw [hde, he, h2]
        exact h1
  obtain ⟨lm, g1, g2⟩ := hlm
  have hr : mach.recogniser s = some ⟨mach.conv, mach.fb, mach.nn, mach.amOf ⟨⟨m.netLeft, m.netRight,
      m.layers.map Ser.Spec.full⟩, m.prior.map w.log, m.left, m.right, m.chunk, m.numPdfs, m.map⟩,
      ⟨mach.ar, mach.graph m.graph, lm, m.map, mach.amScale⟩, mach.fuel, t.words, mach.perFrame, mach.zero⟩ := by
    unfold Machine.recogniser
    rw [e1, e2, e3, e4, g1]
  refine ⟨_, hr, rfl, rfl, rfl, ?_, ?_, rfl, rfl, rfl, rfl, rfl, rfl, rfl, ?_, spells_iff ho.symbols hc⟩
  · simp only [Machine.amOf]
    rw [List.map_map]
    exact List.map_congr_left fun l _ => layerOf_full mach.word l
  · simp only [Machine.amOf]
    rw [List.map_map]
    rfl
  · cases hm : m.lm with
    | none => simp only [hm] at g2 ⊢; exact g2
    | some p => simp only [hm] at g2 ⊢; exact g2

theorem sound_of_fits {mach : Machine G F D} {w : App.World G} {m : App.Spec.Model G} {r : Stt.Rec F D}
    {vm : List F → List (List F) → List F} {e wd : Nat} (hr : IsRec mach w m r) (hf : Fits mach m vm e wd) :
    Stt.Sound r vm e m.left m.right m.chunk wd where
  hvm := by rw [hr.nn]; exact hf.rows
  hb := by rw [hr.layers]; exact hf.net
  hprior := by rw [hr.prior, List.length_map]; exact hf.prior
  hleft := hr.left
  hright := hr.right
  hchunk := hr.chunk
  hc := hf.chunk
  hsize := hf.size
  hbig := hf.big
  tables := by rw [hr.fb]; exact hf.tables
  scratch := by rw [hr.fb]; exact hf.scratch

/-- A loaded recogniser can be destroyed. -/
theorem init_destroy {w : App.World G} {conf : Str} {h h' : App.Heap} {a : Nat} {s : App.Self G} {c : Option Code}
    (hx : App.init w conf h = .ok (some (a, s), h', c)) : ∃ h'', App.destroy h' (some (a, s)) = .ok (h'', .empty) := by
  rcases App.init_after hx with ⟨hp, _⟩ | ⟨s', cf, hp, _, _, ho, _⟩
  · cases hp
  · cases hp
    obtain ⟨h'', hd, _⟩ := App.destroy_owns ho h.next
    exact ⟨h'', hd⟩

/-- The program with a recogniser. -/
theorem main_loaded (mach : Machine G F D) {w : App.World G} {conf input : Str} {junk : Nat → Junk F} {a : Nat}
    {s : App.Self G} {h : App.Heap} {c : Option Code} (hx : App.init w conf ⟨0, []⟩ = .ok (some (a, s), h, c))
    (hl : 4 ≤ input.length) : main mach w junk [conf, input] = processInput w (mach.recogniser s) junk input := by
  obtain ⟨h', hd⟩ := init_destroy hx
  unfold main
  simp only
  rw [if_neg (by omega), hx, lift_ok, bind_ok_nil]
  simp only
  rw [hd, lift_ok]
  obtain ⟨o, x⟩ := processInput w (mach.recogniser s) junk input
  cases x with
  | error e => rfl
  | ok u =>
    rw [bind_ok_out, bind_ok_nil]
    show (⟨o ++ [], .ok ()⟩ : Prog Unit) = ⟨o, .ok u⟩
    rw [List.append_nil]

/-! ## Text -/

theorem fromC_ok {s t : Str} (h : fromC (s ++ [0]) = .ok t) (h0 : 0 ∉ s) : t = s := by
  unfold fromC at h
  rw [if_pos (by simp)] at h
  cases h
  unfold cstr
  rw [List.takeWhile_append_of_pos (by
    intro a ha
    rw [decide_eq_true_eq]
    rintro rfl
    exact h0 ha)]
  simp

theorem fromC_hyp {s : Str} (h0 : 0 ∉ s) : fromC (s ++ [0]) = .ok s := by
  have h : fromC (s ++ [0]) = .ok (cstr (s ++ [0])) := by
    unfold fromC
    rw [if_pos (by simp)]
  rw [h, fromC_ok h h0]

/-- The text of an utterance, if there is one. -/
theorem storeHypText_ok {syms : List Str} {ids : List Int} {fill : Nat → UInt8} {hyp : Str}
    (h : storeHypText syms ids fill = .ok hyp) :
    ∃ ws, ids.reverse.map (word? syms) = ws.map some ∧ hyp = join [32] ws ++ [0] ∧ 0 ∉ join [32] ws := by
  have hall : ∀ i ∈ ids, ∃ v, word? syms i = some v := by
    intro i hi
    by_cases hr : i < 0 ∨ (syms.length : Int) ≤ i
    · rw [C42_unknown_word_asserts syms ids fill ⟨i, hi, hr⟩] at h
      cases h
    · unfold word?
      rw [if_pos (by omega), List.getElem?_eq_getElem (by omega)]
      exact ⟨_, rfl⟩
  have hws : ∀ l : List Int, (∀ i ∈ l, ∃ v, word? syms i = some v) → ∃ ws : List Str, l.map (word? syms) = ws.map some ∧
      ∀ v ∈ ws, 0 ∉ v := by
    intro l
    induction l with
    | nil => intro _; exact ⟨[], rfl, by simp⟩
    | cons i l ih =>
      intro hl
      obtain ⟨v, hv⟩ := hl i (by simp)
      obtain ⟨ws, h1, h2⟩ := ih (fun j hj => hl j (List.mem_cons_of_mem _ hj))
      refine ⟨v :: ws, by rw [List.map_cons, List.map_cons, hv, h1], ?_⟩
      intro x hx
      rcases List.mem_cons.mp hx with rfl | hx
      · exact word?_noNul hv
      · exact h2 x hx
  obtain ⟨ws, h1, h2⟩ := hws ids.reverse (fun i hi => hall i (List.mem_reverse.mp hi))
  rw [C42_hypothesis_text syms ids ws fill h1] at h
  cases h
  refine ⟨ws, h1, rfl, ?_⟩
  clear h1
  induction ws with
  | nil => simp [join]
  | cons v ws ih =>
    cases ws with
    | nil => simpa [join] using h2 v (by simp)
    | cons x ws =>
      have h3 := ih (fun y hy => h2 y (List.mem_cons_of_mem _ hy))
      have h4 := h2 v (by simp)
      unfold join
      rw [List.mem_append, List.mem_append]
      rintro ((h | h) | h)
      · exact h4 h
      · revert h; decide
      · exact h3 h

/-- An accepted file. -/
theorem header_of_audio {file data : List UInt8} {b : Nat} (h : IsAudio file b data) :
    Pcm.readPcmHeader file = .ok (⟨1, 16000, 8 * b⟩, data) := by
  obtain ⟨hb, hd, rfl, hh⟩ := h
  exact (Pcm.C26_mono_partial (hd ++ data) data 16000 (8 * b) (by omega) (by omega)
    (by unfold InI32; omega)).mpr ⟨hd, rfl, hh⟩

end Verif.Main
