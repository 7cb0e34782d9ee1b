import Verif.KitProps
import Verif.InitExample

/-!
# A small directory made with the tools

The hypotheses of C78 hold for it.
-/

namespace Verif.Kit.Ex

open Verif Verif.Text Verif.App.Spec Verif.Tool

/-- The bytes of a text in UTF-8. -/
def utf8 (w : Txt) : Str := (String.ofList w).toByteArray.data.toList

theorem utf8_inj (a b : Txt) (h : utf8 a = utf8 b) : a = b := by
  unfold utf8 at h
  have h1 : String.ofList a = String.ofList b := by
    apply String.toByteArray_inj.mp
    apply ByteArray.ext
    exact Array.toList_inj.mp h
  have := congrArg String.toList h1
  rwa [String.toList_ofList, String.toList_ofList] at this

/-- The words and their ids. -/
def ids : List (Txt × Nat) := [("<s>".toList, 1), ("</s>".toList, 2), ("a".toList, 3), ("b".toList, 5)]

/-- The lines of the word list. -/
def vocab : List Txt := ["<s> 1\n", "</s> 2\n", "a 3\n", "b 5\r\n"].map String.toList

/-- The transition map: five pdfs, two transition ids. -/
def trans : List Txt := ["5\n", "2\n", "1 0\n", "2 4\n"].map String.toList

/-- The sources. -/
def sources : Sources Nat := ⟨99, toyText, trans, App.Ex.syms, vocab, some (App.Ex.lm, demoLm), 12, 3, 40, 5⟩

theorem trans_ok : IsTrans sources.trans 2 [(1, 0), (2, 4)] where
  lines := ⟨_, _, _, 5, rfl, reads_by (by decide +kernel), reads_by (by decide +kernel),
    .entry (reads_by (by decide +kernel)) (.entry (reads_by (by decide +kernel)) .nil)⟩
  fits := by
    intro p hp
    simp only [List.mem_cons, List.not_mem_nil, or_false] at hp
    rcases hp with rfl | rfl <;> exact ⟨by decide, by decide, by decide⟩
  size := by decide

theorem words_ok : IsWords utf8 sources.words sources.vocab ids where
  entries := App.Ex.syms_ok
  same := by decide +kernel
  lines := .entry (reads_by (by decide +kernel)) (.entry (reads_by (by decide +kernel))
    (.entry (reads_by (by decide +kernel)) (.entry (reads_by (by decide +kernel)) .nil)))
  inj := utf8_inj
  words := by decide +kernel
  ids := by decide +kernel
  begins := ⟨by decide +kernel, by decide +kernel⟩
  ends := ⟨by decide +kernel, by decide +kernel⟩
  size := by
    intro w i h
    simp only [ids, List.mem_cons, Prod.mk.injEq, List.not_mem_nil, or_false] at h
    omega

theorem lms_ok : IsLms demoNum ids App.Ex.lm demoLm [("<s>".toList, -1), ("a".toList, -3), ("b".toList, -4)] where
  large := ⟨App.Ex.lm_ok.1, App.Ex.lm_ok.2.1, App.Ex.lm_ok.2.2.1, App.Ex.lm_ok.2.2.2.1, App.Ex.lm_ok.2.2.2.2.1⟩
  file := ⟨_, _, [], .inr demoLm_is, demo_valued⟩
  known := by
    intro w c h
    simp only [List.mem_cons, Prod.mk.injEq, List.not_mem_nil, or_false] at h
    rcases h with ⟨rfl, -⟩ | ⟨rfl, -⟩ | ⟨rfl, -⟩ <;> exact .inr (by decide +kernel)
  costs := ⟨by simp [demoNum], by simp [demoNum], by simp [demoNum]⟩

/-- The hypotheses of `C78_directory` hold for these sources; the recogniser is there. -/
theorem directory : ∃ (w : App.World Nat) (ls : List (Nnet.Layer ℝ)) (l r : Int) (s : App.Self Nat) (h' : App.Heap),
    App.init w [100, 47, 99] ⟨0, []⟩ = .ok (some (0, s), h', none) ∧
      Loaded w s sources toyNum demoNum utf8 ls l r (toyKaldi.prior.map toyVal) 2 [(1, 0), (2, 4)] ids
        [("<s>".toList, -1), ("a".toList, -3), ("b".toList, -4)] := by
  obtain ⟨ls, l, r, hc⟩ := toyKaldi_convertible
  obtain ⟨nn, pr, -, -, e, -⟩ := C76_files hc
  obtain ⟨m, m1, -⟩ := C75_transition_map (pdfs := 5) (n := 2) (ps := [(1, 0), (2, 4)]) (a := "5\n".toList)
    (b := "2\n".toList) (lines := ["1 0\n".toList, "2 4\n".toList]) (reads_by (by decide +kernel)) (reads_by (by decide +kernel))
    (.entry (reads_by (by decide +kernel)) (.entry (reads_by (by decide +kernel)) .nil)) trans_ok.fits trans_ok.size
  have hu : convertUnigram demoNum demoLm vocab = .ok (Ser.writeVec [1000, 0, 1000, 3, 1000, 4]) := by decide +kernel
  let w : App.World Nat :=
    { App.Ex.world with
      file := fun n => if n = [100, 47, 110] then some nn else if n = [100, 47, 112] then some pr else
        if n = [100, 47, 116] then some (Ser.writeVec (intWords m)) else
        if n = [100, 47, 111] then some (Ser.writeVec [1000, 0, 1000, 3, 1000, 4]) else App.Ex.world.file n }
  have key : ∀ n, n ≠ [100, 47, 110] → n ≠ [100, 47, 112] → n ≠ [100, 47, 116] → n ≠ [100, 47, 111] →
      w.file n = App.Ex.world.file n := fun n a b c d => by
    show (if _ then _ else if _ then _ else if _ then _ else if _ then _ else _) = _
    rw [if_neg a, if_neg b, if_neg c, if_neg d]
  have hm : Made w [100, 47, 99] App.Ex.defs toyNum demoNum sources := by
    obtain ⟨i1, -, -, i4, i5, i6, i7, -, i9, ⟨f, j, b, n1, n2, n3⟩, -⟩ := App.Ex.installed
    refine ⟨i1, ⟨⟨_, _, nn, pr, [], [], App.Ex.names_at 2 rfl (by decide) (by decide) (by decide),
      App.Ex.names_at 3 rfl (by decide) (by decide) (by decide), e, ?_, ?_⟩, i4, i5, i6, i7,
      ⟨_, _, [], App.Ex.names_at 8 rfl (by decide) (by decide) (by decide), m1, ?_⟩,
      ⟨_, App.Ex.names_at 9 rfl (by decide) (by decide) (by decide), ?_⟩,
      ⟨_, _, [], App.Ex.names_at 10 rfl (by decide) (by decide) (by decide), App.Ex.lm_ok.2.2.2.2.2, ?_⟩,
      ⟨_, _, [], App.Ex.names_at 11 rfl (by decide) (by decide) (by decide), hu, ?_⟩⟩⟩
    · rw [List.append_nil]; rfl
    · rw [List.append_nil]; rfl
    · rw [List.append_nil]; rfl
    · exact (key _ (by decide) (by decide) (by decide) (by decide)).trans (by decide +kernel)
    · exact (key _ (by decide) (by decide) (by decide) (by decide)).trans (by decide +kernel)
    · rw [List.append_nil]; rfl
  obtain ⟨s, h', h1, h2⟩ := C78_directory w [100, 47, 99] (App.Ex.confOf App.Ex.defs) App.Ex.defs ⟨0, []⟩ (e := 2)
    App.Ex.conf_file App.Ex.conf_ok hm hc (fun x _ b hb => by cases hb; rfl) trans_ok words_ok
    (fun g arpa h => by cases h; exact lms_ok)
  exact ⟨w, ls, l, r, s, h', h1, h2⟩

end Verif.Kit.Ex
