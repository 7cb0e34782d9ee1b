import Verif.MsgModel
import Verif.InitLemmas

/-!
# Without the texts, the model with texts is the other model
-/

namespace Verif.Msg

open Verif Verif.Text Verif.App

variable {G α β : Type}

/-- The code without the text. -/
def forget : Mio α → Io α
  | .ok a => .ok a
  | .error (.status c _) => .error (.status c)
  | .error (.fault f) => .error (.fault f)

theorem forget_bind (x : Mio α) (f : α → Mio β) : forget (x >>= f) = (forget x >>= fun a => forget (f a)) := by
  rcases x with ((_ | _) | _) <;> rfl

@[simp] theorem forget_ok (a : α) : forget (.ok a : Mio α) = .ok a := rfl

@[simp] theorem forget_failed (c : Code) (t : Str) : forget (failed c t : Mio α) = bad c := rfl

@[simp] theorem forget_ofExec (x : Exec α) : forget (Mio.ofExec x) = Io.ofExec x := by cases x <;> rfl

@[simp] theorem forget_fault (f : Fault) : forget (.error (.fault f) : Mio α) = .error (.fault f) := rfl

theorem forget_ite {c : Prop} [Decidable c] (x y : Mio α) :
    forget (if c then x else y) = if c then forget x else forget y := by split <;> rfl

/-- The reader with texts is the one without. -/
def Plain (p : Rm α) (q : Rd α) : Prop := ∀ name bs, forget (p name bs) = q bs

theorem Plain.pure (a : α) : Plain (pure a) (Pure.pure a) := fun _ _ => rfl

theorem Plain.bind {p : Rm α} {q : Rd α} {f : α → Rm β} {g : α → Rd β} (h : Plain p q) (k : ∀ a, Plain (f a) (g a)) :
    Plain (p >>= f) (q >>= g) := by
  intro name bs
  show forget (p name bs >>= fun x => f x.1 name x.2) = (q bs >>= fun x => g x.1 x.2)
  rw [forget_bind, h]
  congr
  funext x
  exact k _ _ _

theorem Plain.fail (c : Code) (t : Str → Str) : Plain (Rm.fail c t : Rm α) (Rd.fail c) := fun _ _ => rfl

theorem Plain.fault (f : Fault) : Plain (Rm.fault f : Rm α) (Rd.fault f) := fun _ _ => rfl

theorem Plain.ite {c : Prop} [Decidable c] {p p' : Rm α} {q q' : Rd α} (h : Plain p q) (h' : Plain p' q') :
    Plain (if c then p else p') (if c then q else q') := by split <;> assumption

theorem plain_readBytes (n : Nat) : Plain (readBytes n) (Verif.readBytes n) := by
  intro name bs
  unfold readBytes Verif.readBytes
  rw [forget_ite]
  rfl

theorem plain_readI32 : Plain readI32 Verif.readI32 := (plain_readBytes 4).bind fun _ => .pure _

theorem plain_readTag (e : List UInt8) : Plain (readTag e) (Verif.readTag e) :=
  (plain_readBytes _).bind fun _ => .ite (.pure _) (.fail _ _)

/-- A vector without the text. -/
def VecResult.plain (r : VecResult) : Ser.VecResult := ⟨r.status.map Prod.fst, r.mem, r.rest⟩

theorem readElements_plain (name : Str) (old : List (Option UInt8)) (size dim : Int) (bs : List UInt8) :
    (readElements name old size dim bs).map VecResult.plain = Ser.readElements old size dim bs := by
  unfold readElements Ser.readElements
  split
  · rfl
  · cases Ser.resizeMem old dim with
    | error e => rfl
    | ok mem =>
      simp only [ok_bind]
      rcases Ser.fread (4 * dim.toNat) bs with ⟨(_ | _), r⟩
      · dsimp only
        split <;> rfl
      · rfl

theorem vectorRead_plain (name : Str) (old : List (Option UInt8)) (bs : List UInt8) :
    (vectorRead name old bs).map VecResult.plain = Ser.vectorRead old bs := by
  unfold vectorRead Ser.vectorRead
  rcases Ser.fread 4 bs with ⟨(_ | v), r⟩
  · rfl
  · dsimp only
    split
    · rfl
    · unfold readSized Ser.readSized
      rcases Ser.fread 4 r with ⟨(_ | v), r⟩
      · rfl
      · dsimp only
        rcases Ser.fread 4 r with ⟨(_ | v), r⟩
        · rfl
        · exact readElements_plain _ _ _ _ _

theorem plain_readVec : Plain readVec Ser.readVec := by
  intro name bs
  unfold readVec Ser.readVec
  rw [← vectorRead_plain name [] bs]
  rcases vectorRead name [] bs with e | ⟨(_ | ⟨c, t⟩), m, r⟩ <;> rfl

theorem plain_readRows (cols : Nat) : ∀ (n : Nat) (mem : List (Option UInt8)),
    Plain (readRows cols n mem) (Ser.readRows cols n mem)
  | 0, _ => fun _ _ => rfl
  | n + 1, mem => by
    intro name bs
    unfold readRows Ser.readRows
    rw [← vectorRead_plain name mem bs]
    rcases vectorRead name mem bs with e | ⟨st, m, r⟩
    · rfl
    · have ih := plain_readRows cols n m name r
      simp only [Except.map, VecResult.plain]
      split
      · rfl
      · rw [← ih]
        rcases readRows cols n m name r with (⟨_, _⟩ | _) | ⟨rows, rest⟩ <;> rfl

theorem plain_readMat : Plain readMat Ser.readMat :=
  (plain_readTag _).bind fun _ => plain_readI32.bind fun _ => plain_readI32.bind fun rows =>
    plain_readI32.bind fun cols => by
      intro name bs
      unfold readMatBody Ser.readMatBody
      cases matInit rows cols with
      | error e => rfl
      | ok u => exact plain_readRows _ _ _ _ _

theorem plain_readIndices : ∀ n : Nat, Plain (readIndices n) (Ser.readIndices n)
  | 0 => .pure _
  | n + 1 => plain_readI32.bind fun _ => (plain_readIndices n).bind fun _ => .pure _

theorem plain_readBody (type : Int) : Plain (readBody type) (Ser.readBody type) := by
  refine .ite (plain_readMat.bind fun _ => plain_readVec.bind fun _ => .pure _) ?_
  refine .ite (.pure _) (.ite (.pure _) (.ite (.pure _) ?_))
  refine .ite (plain_readI32.bind fun n => .ite (.fail _ _) ((plain_readIndices _).bind fun _ => .pure _)) ?_
  refine .ite (plain_readVec.bind fun _ => plain_readVec.bind fun _ => .pure _) (.ite (.pure _) ?_)
  exact .ite (plain_readI32.bind fun _ => plain_readI32.bind fun _ => .pure _) (.fail _ _)

theorem plain_readLayers : ∀ n : Nat, Plain (readLayers n) (Ser.readLayers n)
  | 0 => .pure _
  | n + 1 =>
    ((plain_readTag _).bind fun _ => plain_readI32.bind fun _ => plain_readBody _).bind fun _ =>
      (plain_readLayers n).bind fun _ => .pure _

theorem plain_readNnet : Plain readNnet Ser.readNnet :=
  (plain_readTag _).bind fun _ => plain_readI32.bind fun _ => plain_readI32.bind fun _ => plain_readI32.bind fun _ =>
    (plain_readLayers _).bind fun _ => .pure _

theorem plain_readArray (sz n : Nat) : Plain (readArray sz n) (Fst.readArray sz n) :=
  .ite (plain_readBytes _) (.fault _)

theorem plain_resizeCheck (n : Int) : Plain (resizeCheck n) (Fst.resizeCheck n) := .ite (.fault _) (.pure _)

theorem plain_fstRead : Plain fstRead Fst.read :=
  (plain_readBytes _).bind fun _ => .ite (.fail _ _) <|
    plain_readI32.bind fun _ => plain_readI32.bind fun _ => plain_readI32.bind fun _ => plain_readI32.bind fun _ =>
      .ite (.fail _ _) <|
        (plain_resizeCheck _).bind fun _ => (plain_readArray _ _).bind fun _ => (plain_readArray _ _).bind fun _ =>
          (plain_resizeCheck _).bind fun _ => (plain_readArray _ _).bind fun _ => .pure _

/-! ## Configuration and symbols -/

theorem forget_configLine (name : Str) (table : List (Str × Str)) (line : Str) :
    forget (configLine name table line) = Text.configLine table line := by
  unfold configLine Text.configLine
  rw [forget_bind, forget_ofExec]
  congr
  funext l
  rw [forget_ite]
  split
  · rfl
  · rw [forget_bind, forget_ofExec]
    congr
    funext fields
    rcases fields with _ | ⟨k, _ | ⟨v, _ | ⟨c, l⟩⟩⟩
    · rfl
    · rfl
    · dsimp only
      rw [forget_bind, forget_ofExec]
      congr
      funext k
      rw [forget_bind, forget_ofExec]
      congr
      funext v
      rw [forget_ite]
      rfl
    · rfl

theorem forget_configLoop (name : Str) : ∀ (fuel : Nat) (f : File) (table : List (Str × Str)),
    forget (configLoop name fuel f table) = Text.configLoop fuel f table
  | 0, _, _ => rfl
  | fuel + 1, f, table => by
    unfold configLoop Text.configLoop
    rw [forget_ite]
    split
    · rfl
    · rcases readLine f with ⟨(l | _ | _), f⟩
      · dsimp only
        rw [forget_bind, forget_configLine]
        congr
        funext t
        exact forget_configLoop name fuel f t
      · rfl
      · rfl

theorem forget_openFile (w : World G) (name : Str) : forget (openFile w name) = App.openFile w name := by
  unfold openFile App.openFile
  cases w.file name <;> rfl

theorem forget_readConf (w : World G) (name : Str) : forget (readConf w name) = App.readConf w name := by
  unfold readConf App.readConf
  rw [forget_bind, forget_openFile]
  congr
  funext bs
  unfold Config.read
  rw [forget_bind, forget_configLoop]
  rfl

theorem forget_getPath (c : Config) (key : Str) : forget (getPath c key) = c.getPath key := by
  unfold getPath Config.getPath
  rw [forget_bind, forget_ofExec]
  congr
  funext s
  rw [forget_ite]
  rfl

theorem forget_getInteger (c : Config) (key : Str) : forget (getInteger c key) = c.getInteger key := by
  unfold getInteger Config.getInteger
  rw [forget_bind, forget_ofExec]
  congr
  funext s
  rw [forget_ite]
  rfl

theorem forget_stringToLong (s : Str) : forget (stringToLong s) = Text.stringToLong s := by
  unfold stringToLong Text.stringToLong
  rw [forget_bind, forget_ofExec]
  congr
  funext t
  dsimp only
  rw [forget_ite]
  rfl

theorem forget_symbolLine (t : Symbols) (line : Str) : forget (symbolLine t line) = Text.symbolLine t line := by
  unfold symbolLine Text.symbolLine
  rw [forget_bind, forget_ofExec]
  congr
  funext fields
  rcases fields with _ | ⟨w, _ | ⟨x, _ | ⟨c, l⟩⟩⟩
  · rfl
  · rfl
  · dsimp only
    rw [forget_bind, forget_stringToLong]
    congr
    funext id
    rw [forget_bind, forget_ofExec]
    congr
    funext ws
    rw [forget_bind, forget_ofExec]
    rfl
  · rfl

theorem forget_symbolLoop (name : Str) : ∀ (fuel : Nat) (f : File) (t : Symbols),
    forget (symbolLoop name fuel f t) = Text.symbolLoop fuel f t
  | 0, _, _ => rfl
  | fuel + 1, f, t => by
    unfold symbolLoop Text.symbolLoop
    rcases readLine f with ⟨(l | _ | _), f⟩
    · dsimp only
      rw [forget_bind, forget_symbolLine]
      congr
      funext t
      exact forget_symbolLoop name fuel f t
    · rfl
    · rfl

theorem forget_findBosEos (t : Symbols) : forget (findBosEos t) = Text.findBosEos t := by
  unfold findBosEos Text.findBosEos
  cases mapFind t.ids kBos <;> cases mapFind t.ids kEos <;> rfl

theorem forget_symbolsRead (w : World G) (name : Str) : forget (symbolsRead w name) = App.symbolsRead w name := by
  unfold symbolsRead App.symbolsRead
  rw [forget_bind, forget_openFile]
  congr
  funext bs
  unfold Text.readSymbols
  rw [forget_bind, forget_symbolLoop]
  congr
  funext t
  exact forget_findBosEos t

/-! ## The recogniser -/

theorem forget_readKey {p : Rm α} {q : Rd α} (hp : Plain p q) (w : World G) (conf : Config) (key : Str)
    (k : α → Mio β) (k' : α × List UInt8 → Io β) (hk : ∀ x, forget (k x.1) = k' x) :
    forget (readKey w conf key p >>= k) = (App.openKey w conf key >>= fun bs => q bs >>= k') := by
  unfold readKey App.openKey
  rw [forget_bind, forget_bind, forget_getPath]
  cases conf.getPath key with
  | error e => rfl
  | ok name =>
    simp only [io_ok_bind]
    rw [forget_bind, forget_openFile]
    cases App.openFile w name with
    | error e => rfl
    | ok bs =>
      simp only [io_ok_bind]
      rw [forget_bind, hp]
      cases q bs with
      | error e => rfl
      | ok x => exact hk _

theorem forget_amRead (w : World G) (conf : Config) : forget (amRead w conf) = App.amRead w conf := by
  unfold amRead App.amRead
  refine forget_readKey plain_readNnet w conf kNnet _ _ fun net => ?_
  refine forget_readKey plain_readVec w conf kPrior _ _ fun prior => ?_
  rw [forget_bind, forget_ofExec]; congr; funext lp
  rw [forget_bind, forget_getInteger]; congr; funext left
  rw [forget_bind, forget_getInteger]; congr; funext right
  rw [forget_bind, forget_getInteger]; congr; funext chunk
  rw [forget_bind, forget_getInteger]; congr; funext pdfs
  refine forget_readKey plain_readVec w conf kTid2pdf _ _ fun map => ?_
  rw [forget_bind, forget_ofExec]
  rfl

/-- A stage without the text. -/
def Stage.plain (s : Stage G) : App.Stage G := (s.1.map Prod.fst, s.2)

theorem settle_plain (r : Mio α) (h : Heap) (s : Self G) (f : α → Self G) :
    (settle r h s f).map Stage.plain = App.settle (forget r) h s f := by
  rcases r with ((_ | _) | _) <;> rfl

theorem andThen_plain {x : Exec (Stage G)} {x' : Exec (App.Stage G)} (hx : x.map Stage.plain = x')
    {f : Heap → Self G → Exec (Stage G)} {f' : Heap → Self G → Exec (App.Stage G)}
    (hf : ∀ h s, (f h s).map Stage.plain = f' h s) : (andThen x f).map Stage.plain = App.andThen x' f' := by
  subst hx
  unfold andThen App.andThen
  rcases x with e | ⟨(_ | c), h, s⟩
  · rfl
  · exact hf h s
  · rfl

theorem readHclg_plain (w : World G) (conf : Config) (h : Heap) (s : Self G) :
    (readHclg w conf h s).map Stage.plain = App.readHclg w conf h s := by
  unfold readHclg App.readHclg
  cases conf.getPathOrElse kFst [] with
  | error e => rfl
  | ok name =>
    simp only [ok_bind]
    split
    · rfl
    · cases w.readGraph name <;> rfl

theorem readAm_plain (w : World G) (conf : Config) (h : Heap) (s : Self G) :
    (readAm w conf h s).map Stage.plain = App.readAm w conf h s := by
  unfold readAm App.readAm
  rw [← forget_amRead]
  exact settle_plain _ _ _ _

theorem readSyms_plain (w : World G) (conf : Config) (h : Heap) (s : Self G) :
    (readSyms w conf h s).map Stage.plain = App.readSyms w conf h s := by
  unfold readSyms App.readSyms
  cases conf.getPathOrElse kSymbols [] with
  | error e => rfl
  | ok name =>
    simp only [ok_bind]
    split
    · rfl
    · rw [← forget_symbolsRead]
      exact settle_plain _ _ _ _

theorem forget_originalRead (name : Str) (bs : List UInt8) :
    forget (originalRead name bs) = App.originalRead bs := by
  unfold originalRead App.originalRead
  rw [forget_bind, plain_readVec]
  congr
  funext v
  exact forget_ofExec _

theorem forget_largeRead (name : Str) (bs : List UInt8) : forget (largeRead name bs) = App.largeRead bs := by
  unfold largeRead App.largeRead
  rw [forget_bind, plain_fstRead]
  congr
  funext v
  rw [forget_bind, forget_ofExec]
  rfl

theorem readLarge_plain (w : World G) (name : Str) (h : Heap) (s : Self G) :
    (readLarge w name h s).map Stage.plain = App.readLarge w name h s := by
  unfold readLarge App.readLarge
  cases w.file name with
  | none => rfl
  | some bs =>
    dsimp only
    rw [← forget_largeRead name]
    exact settle_plain _ _ _ _

theorem readOriginal_plain (w : World G) (name : Str) (h : Heap) (s : Self G) :
    (readOriginal w name h s).map Stage.plain = App.readOriginal w name h s := by
  unfold readOriginal App.readOriginal
  cases w.file name with
  | none => rfl
  | some bs =>
    dsimp only
    rw [← forget_originalRead name]
    exact settle_plain _ _ _ _

theorem newDelta_plain (h : Heap) (s : Self G) : (newDelta h s).map Stage.plain = App.newDelta h s := by
  unfold newDelta App.newDelta
  rcases s.symbols with _ | ⟨_, _ | _⟩ <;> rfl

theorem readDelta_plain (w : World G) (conf : Config) (h : Heap) (s : Self G) :
    (readDelta w conf h s).map Stage.plain = App.readDelta w conf h s := by
  unfold readDelta App.readDelta
  cases conf.getPathOrElse kLarge [] with
  | error e => rfl
  | ok large =>
    simp only [ok_bind]
    split
    · rfl
    · cases conf.getPathOrElse kOriginal [] with
      | error e => rfl
      | ok original =>
        simp only [ok_bind]
        split
        · rfl
        · exact andThen_plain (andThen_plain (readOriginal_plain _ _ _ _) (readLarge_plain _ _)) newDelta_plain

theorem loadAll_plain (w : World G) (conf : Config) (h : Heap) :
    (loadAll w conf h).map Stage.plain = App.loadAll w conf h :=
  andThen_plain (andThen_plain (andThen_plain (andThen_plain (readHclg_plain _ _ _ _) (readAm_plain _ _))
    (readSyms_plain _ _)) (readDelta_plain _ _)) fun _ _ => rfl

end Verif.Msg
