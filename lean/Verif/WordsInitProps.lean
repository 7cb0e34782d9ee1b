import Verif.WordsTextProps
import Verif.InitProps

/-!
# Property C116: a model with a converted word list cannot be opened
-/

namespace Verif.App

open Verif Verif.Text Verif.App.Spec

variable {G : Type}

/-- A recogniser is returned only if the file named under `symbol_table` is accepted as a list of words. -/
theorem init_symbols {w : World G} {conf bytes f : Str} {defs : List (Str × Str)} {h h' : Heap} {a : Nat} {s : Self G}
    {c : Option Code} (hf : w.file conf = some bytes) (hc : IsConf bytes defs)
    (hn : Names conf defs [115, 121, 109, 98, 111, 108, 95, 116, 97, 98, 108, 101] f) (hx : init w conf h = .ok (some (a, s), h', c)) :
    ∃ content t, w.file f = some content ∧ readSymbols content = .ok t := by
  obtain ⟨cf, hr, hk⟩ := readConf_knows hf hc
  have hp : cf.getPathOrElse kSymbols [] = .ok f := getPathOrElse_names hk hn _
  unfold init at hx
  simp only [hr] at hx
  obtain ⟨⟨c1, h1, s1⟩, e1, hx⟩ := bind_ok hx
  cases c1 with
  | some c1 =>
    simp only at hx
    unfold initFailed at hx
    obtain ⟨_, _, hx⟩ := bind_ok hx
    cases hx
  | none =>
    unfold loadAll at e1
    rcases andThen_cases e1 with ⟨_, h0, _⟩ | ⟨h2, s2, e2, -⟩
    · cases h0
    rcases andThen_cases e2 with ⟨_, h0, _⟩ | ⟨h3, s3, e3, -⟩
    · cases h0
    rcases andThen_cases e3 with ⟨_, h0, _⟩ | ⟨h4, s4, -, e4⟩
    · cases h0
    unfold readSyms at e4
    rw [hp, ok_bind] at e4
    split at e4
    · cases e4
    · simp only at e4
      unfold settle at e4
      split at e4
      · cases e4
      · cases e4
      · rename_i t ht
        unfold symbolsRead openFile at ht
        cases hw : w.file f with
        | none => rw [hw] at ht; cases ht
        | some content =>
          rw [hw] at ht
          exact ⟨content, t, rfl, ht⟩

/-- C116: whatever else is in a model directory, if its configuration names as `symbol_table` a file made by
`convert_words.py`, `ce_stt_init` does not return a recogniser. -/
theorem C116_no_recogniser {w : World G} {conf bytes f : Str} {defs : List (Str × Str)} {h : Heap}
    (hf : w.file conf = some bytes) (hc : IsConf bytes defs) (hn : Names conf defs [115, 121, 109, 98, 111, 108, 95, 116, 97, 98, 108, 101] f)
    {lines : List Tool.Txt} {es : List (Tool.Txt × Int)} {M : Nat} (hl : Tool.Lists lines es) (hM : Tool.Largest es M)
    (hr : ∀ e ∈ es, -((M : Int) + 1) ≤ e.2) {content : Str} (ht : Tool.convertWordsText lines = .ok content)
    (hw : w.file f = some content) (hs : content.length < 16777216) (a : Nat) (s : Self G) (h' : Heap) (c : Option Code) :
    init w conf h ≠ .ok (some (a, s), h', c) := by
  intro hx
  obtain ⟨content', t, e, hy⟩ := init_symbols hf hc hn hx
  rw [hw] at e
  rw [← Option.some.inj e] at hy
  exact Tool.C116_rejected hl hM hr ht hs t hy

-- the directory of `InitExample` with the list `hé 1`, `a 0`, `b -1` converted; before, it could be opened
example : ∃ content, Tool.convertWordsText Tool.demoText = .ok content ∧
    (∃ a s h', init Ex.world [100, 47, 99] ⟨0, []⟩ = .ok (some (a, s), h', none)) ∧
    ∀ a s h' c, init (Ex.world.with [100, 47, 115] (some content)) [100, 47, 99] ⟨0, []⟩ ≠ .ok (some (a, s), h', c) := by
  obtain ⟨content, h, -⟩ := Tool.C116_negative_overwrites
  refine ⟨content, h, ?_, fun a s h' c => ?_⟩
  · obtain ⟨s, h', e, -⟩ := C65_load Ex.world [100, 47, 99] _ _ _ ⟨0, []⟩ Ex.conf_file Ex.conf_ok Ex.installed Ex.model_ok
    exact ⟨_, s, h', e⟩
  · refine C116_no_recogniser (f := [100, 47, 115]) (bytes := Ex.confOf Ex.defs) ?_ Ex.conf_ok ?_ Tool.demo_lists
      Tool.demo_largest (by decide) h ?_ ?_ a s h' c
    · unfold World.with
      exact Ex.conf_file
    · exact Ex.names_at 9 rfl (by decide) (by decide) (by decide)
    · unfold World.with
      rfl
    · rw [Tool.convert_ok Tool.demo_lists Tool.demo_largest (by decide)] at h
      rw [← Except.ok.inj h]
      decide +kernel

end Verif.App
