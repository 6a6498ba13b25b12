import Verif.TextPaths
import Verif.TextCalls
import Verif.Props.Text
set_option linter.unusedSimpArgs false
/-!
# C53: how a text is divided does not matter

The answers of the text reader, to any sequence of requests, do not depend on the pieces in which `input.read` returns the text, whether the text is well formed or not:
the same events, the same exceptions, the same endless loops.  The texts are those of `TextReader.Whole.Fine`; for others it is wrong (`C53_return_after_slash`).
-/
namespace Ion.Text
open Ion Ion.TextReader Ion.TextReader.Whole
open Ion.RawReader (Cmd)

/-- `blocking_reader(text_reader(), input)`, sent these requests, where `input.read` returns these pieces as `bytes`. -/
def askBytes (F : FloatText) (ps : List (List Nat)) (cmds : List Cmd) : List (Except PyErr IonEvent) :=
  Blocking.run (TextReader.send F byteUnits) IonEvent.eventType ION_STREAM_END_EVENT (.active .fresh (ps.map toBytes)) cmds

/-- The same, where `input.read` returns the pieces as `str`. -/
def askStr (F : FloatText) (ps : List (List Nat)) (cmds : List Cmd) : List (Except PyErr IonEvent) :=
  Blocking.run (TextReader.send F strUnits) IonEvent.eventType ION_STREAM_END_EVENT (.active .fresh (ps.map strBytes)) cmds

theorem twins {F : FloatText} {units units' : Bytes → List Nat} {f f' : List Nat → Bytes} {t : List Nat} {ps ps' : List (List Nat)} (hp : Pieces ps t) (hp' : Pieces ps' t)
    (hu : ∀ p ∈ ps, units (f p) = p) (hu' : ∀ p ∈ ps', units' (f' p) = p) (hc : ∀ c ∈ t, c ≤ 0x10FFFF) (hf : Fine t) :
    Twin F units units' (.active .fresh (ps.map f)) (.active .fresh (ps'.map f')) := by
  refine .fresh (t := t) ⟨⟨[], Queue.rel_empty, ?_⟩, ?_⟩ ⟨⟨[], Queue.rel_empty, ?_⟩, ?_⟩ hf (Calm.eofLast_none fun h => ?_)
  · rw [flatMap_units hu, hp.1]; rfl
  · intro d hd
    obtain ⟨p, hp', rfl⟩ := List.mem_map.1 hd
    rw [hu p hp']
    exact hp.2 p hp'
  · rw [flatMap_units hu', hp'.1]; rfl
  · intro d hd
    obtain ⟨p, hp'', rfl⟩ := List.mem_map.1 hd
    rw [hu' p hp'']
    exact hp'.2 p hp''
  · have := hc _ h
    simp only [EOF] at this
    omega

/-- **C53**  (`str`)  Whatever the text is, in whatever pieces it is read, and whatever is requested: the answers are the same. -/
theorem C53_text_chunks_str_partial (F : FloatText) (t : List Nat) (hc : ∀ c ∈ t, c ≤ 0x10FFFF) (hf : Fine t) (ps ps' : List (List Nat)) (hp : Pieces ps t) (hp' : Pieces ps' t) (cmds : List Cmd) :
    askStr F ps cmds = askStr F ps' cmds := by
  refine run_same cmds (twins hp hp' (fun p h => units_str fun c hc' => ?_) (fun p h => units_str fun c hc' => ?_) hc hf)
  · have := piece_bound hp hc p h c hc'; omega
  · have := piece_bound hp' hc p h c hc'; omega

/-- **C53**  (`bytes`)  The same for `bytes`, one piece or many. -/
theorem C53_text_chunks_bytes_partial (F : FloatText) (t : List Nat) (hc : ∀ c ∈ t, c < 256) (hf : Fine t) (ps ps' : List (List Nat)) (hp : Pieces ps t) (hp' : Pieces ps' t) (cmds : List Cmd) :
    askBytes F ps cmds = askBytes F ps' cmds := by
  refine run_same cmds (twins hp hp' (fun p h => units_bytes fun c hc' => ?_) (fun p h => units_bytes fun c hc' => ?_) (fun c h => by have := hc c h; omega) hf)
  · exact piece_bound hp hc p h c hc'
  · exact piece_bound hp' hc p h c hc'

/-- **C53**  (`bytes` and `str`)  And it does not matter whether the characters come as `bytes` or as `str`. -/
theorem C53_bytes_or_str_partial (F : FloatText) (t : List Nat) (hc : ∀ c ∈ t, c < 256) (hf : Fine t) (ps ps' : List (List Nat)) (hp : Pieces ps t) (hp' : Pieces ps' t) (cmds : List Cmd) :
    askBytes F ps cmds = askStr F ps' cmds := by
  refine run_same cmds (twins hp hp' (fun p h => units_bytes fun c hc' => ?_) (fun p h => units_str fun c hc' => ?_) (fun c h => by have := hc c h; omega) hf)
  · exact piece_bound hp hc p h c hc'
  · have := piece_bound hp' hc p h c hc'; omega

/-- Every text is meant in which no slash is directly followed by a carriage return, a backslash or a high surrogate. -/
theorem fine_of_slashes {t : List Nat} (h : ∀ u c w, t = u ++ 47 :: c :: w → c ≠ 13 ∧ c ≠ 92 ∧ ¬ isHighSurrogate c) : Fine t := by
  intro u c w ht hs
  obtain ⟨h1, h2, h3⟩ := h u c w ht
  rcases hs with hs | hs | hs
  · exact absurd hs h1
  · exact absurd hs h2
  · exact absurd hs h3

/-- **C53**  In particular every text without slash, carriage return and backslash. -/
theorem C53_plain_texts (F : FloatText) (t : List Nat) (hc : ∀ c ∈ t, c < 128) (h : 47 ∉ t ∨ (13 ∉ t ∧ 92 ∉ t)) (ps ps' : List (List Nat)) (hp : Pieces ps t) (hp' : Pieces ps' t) (cmds : List Cmd) :
    askBytes F ps cmds = askBytes F ps' cmds := by
  refine C53_text_chunks_bytes_partial F t (fun c h => by have := hc c h; omega) (fine_of_slashes ?_) ps ps' hp hp' cmds
  rintro u c w rfl
  have hcc := hc c (by simp)
  rcases h with h | ⟨h1, h2⟩
  · simp at h
  · refine ⟨?_, ?_, ?_⟩
    · rintro rfl; simp at h1
    · rintro rfl; simp at h2
    · unfold isHighSurrogate; omega

/-! ## Which texts are meant -/

/-- `Fine`, to be computed: `b` and `a` are the characters before the text, if there are any (`a` the last one). -/
def fineB : Option Nat → Option Nat → List Nat → Bool
  | _, _, [] => true
  | _, _, [_] => true
  | b, a, x :: c :: w =>
    (if x = 47 ∧ (c = 13 ∨ c = 92 ∨ (0xD800 ≤ c ∧ c ≤ 0xDBFF)) then
      (a = some 42 && b.isSome && b != some 39) || (a = some 47 && (b.isNone || b.any isWs))
    else true) && fineB a (some x) (c :: w)

theorem fineB_sound : ∀ (t p : List Nat), fineB p[1]? p[0]? t = true →
    ∀ u c w, t = u ++ 47 :: c :: w → Sharp c → (∃ u' a, p.reverse ++ u = u' ++ [a, 42] ∧ a ≠ 39) ∨ p.reverse ++ u = [47] ∨ ∃ u' a, p.reverse ++ u = u' ++ [a, 47] ∧ isWs a = true := by
  intro t
  induction t with
  | nil => rintro p - u c w h; simp at h
  | cons x t ih =>
    intro p hb u c w ht hs
    cases t with
    | nil =>
      cases u with
      | nil => cases ht
      | cons y u => simp at ht
    | cons d t =>
      simp only [fineB, Bool.and_eq_true] at hb
      obtain ⟨h1, h2⟩ := hb
      cases u with
      | nil =>
        simp only [List.nil_append, List.cons.injEq] at ht
        obtain ⟨rfl, rfl, rfl⟩ := ht
        rw [if_pos ⟨rfl, hs⟩] at h1
        cases p with
        | nil => simp at h1
        | cons a p =>
          cases p with
          | nil =>
            simp at h1
            subst h1
            exact .inr (.inl rfl)
          | cons b p =>
            simp only [List.getElem?_cons_zero, List.getElem?_cons_succ, Option.isSome_some, Option.isNone_some, Option.any_some, Bool.or_eq_true, Bool.and_eq_true, decide_eq_true_eq, Option.some.injEq,
              bne_iff_ne, ne_eq, Bool.false_or, and_true, Bool.false_eq_true, false_or] at h1
            rcases h1 with ⟨rfl, h⟩ | ⟨rfl, h⟩
            · exact .inl ⟨p.reverse, b, by simp, h⟩
            · exact .inr (.inr ⟨p.reverse, b, by simp, h⟩)
      | cons y u =>
        simp only [List.cons_append, List.cons.injEq] at ht
        obtain ⟨rfl, ht⟩ := ht
        have := ih (x :: p) (by simpa using h2) u c w ht hs
        simpa using this

theorem fine_of {t : List Nat} (h : fineB none none t = true) : Fine t := by
  intro u c w ht hs
  have := fineB_sound t [] (by simpa using h) u c w ht hs
  simpa using this

/-- The characters of a string. -/
def chars (s : List Char) : List Nat := s.map Char.toNat

/-- A text with escapes, comments and carriage returns, which is not well formed; it is meant. -/
example : Fine (chars ['"','a','/','b','\\','n','"','/','*','x','*','/','\r','\n','/','/','c','\r','\n','[','1',' ','}']) := fine_of rfl

example (F : FloatText) (ps : List (List Nat)) (hp : Pieces ps (chars ['"','\\','n','"','/','*','x','*','/','\r','\n','[','1',' ','}'])) (n : Nat) :
    askBytes F ps (List.replicate n .next) = askBytes F [chars ['"','\\','n','"','/','*','x','*','/','\r','\n','[','1',' ','}']] (List.replicate n .next) :=
  C53_text_chunks_bytes_partial F _ (by decide) (fine_of rfl) _ _ hp ⟨by simp, by simp [chars]⟩ _

/-! ## What is missing -/

/-- `Blocking.atEofLoop`, computed. -/
def eofN (F : FloatText) (units : Bytes → List Nat) (m n : Nat) : Nat → Except PyErr IonEvent × Status → Option (Except PyErr IonEvent × Blocking.State Status)
  | 0, _ => none
  | _ + 1, (.error err, _) => some (.error err, .dead)
  | i + 1, (.ok e, st) =>
    if e.eventType = .streamEnd then some (.ok ION_STREAM_END_EVENT, .ended)
    else if e.eventType = .incomplete then (sendN F units m n st .next).bind (eofN F units m n i)
    else some (.ok e, .active st [])

theorem eofN_sound {F : FloatText} {units : Bytes → List Nat} {m n : Nat} : ∀ {i : Nat} {r : Except PyErr IonEvent × Status} {o : Except PyErr IonEvent × Blocking.State Status},
    eofN F units m n i r = some o → Blocking.atEofLoop (TextReader.send F units) IonEvent.eventType ION_STREAM_END_EVENT r = some o := by
  intro i
  induction i with
  | zero => intro r o h; cases h
  | succ i ih =>
    rintro ⟨r, st⟩ o h
    rw [Blocking.atEofLoop.eq_def]
    cases r with
    | error e => exact h
    | ok e =>
      simp only [eofN] at h
      dsimp only
      split at h
      · rename_i hc; rw [if_pos hc]; exact h
      · rename_i hc
        rw [if_neg hc]
        split at h
        · rename_i hc; rw [if_pos hc]
          cases hs : sendN F units m n st .next with
          | none => rw [hs] at h; cases h
          | some r' =>
            rw [hs] at h
            rw [sendN_sound hs]
            exact ih h
        · rename_i hc; rw [if_neg hc]; exact h

/-- `Blocking.loop`, computed. -/
def loopN (F : FloatText) (units : Bytes → List Nat) (m n : Nat) : Except PyErr IonEvent × Status → List Bytes → Option (Except PyErr IonEvent × Blocking.State Status)
  | r, [] => eofN F units m n n r
  | (.error err, _), _ => some (.error err, .dead)
  | (.ok e, st), d :: ds => if e.eventType.isStreamSignal then (sendN F units m n st (.data d)).bind fun r => loopN F units m n r ds else some (.ok e, .active st (d :: ds))

theorem loopN_sound {F : FloatText} {units : Bytes → List Nat} {m n : Nat} : ∀ {cs : List Bytes} {r : Except PyErr IonEvent × Status} {o : Except PyErr IonEvent × Blocking.State Status},
    loopN F units m n r cs = some o → Blocking.loop (TextReader.send F units) IonEvent.eventType ION_STREAM_END_EVENT r cs = o := by
  intro cs
  induction cs with
  | nil =>
    intro r o h
    simp only [Blocking.loop, Blocking.atEof]
    rw [eofN_sound (by simpa [loopN] using h)]
    rfl
  | cons d ds ih =>
    rintro ⟨r, st⟩ o h
    cases r with
    | error e =>
      simp only [loopN, Option.some.injEq] at h
      rw [← h]; rfl
    | ok e =>
      simp only [loopN] at h
      simp only [Blocking.loop]
      split at h
      · rename_i hc
        rw [if_pos hc]
        cases hs : sendN F units m n st (.data d) with
        | none => rw [hs] at h; cases h
        | some r' =>
          rw [hs] at h
          rw [sendN_sound hs]
          exact ih h
      · rename_i hc
        rw [if_neg hc]
        simpa using h

/-- `Blocking.run`, computed. -/
def runN (F : FloatText) (units : Bytes → List Nat) (m n : Nat) : Status → List Bytes → List Cmd → Option (List (Except PyErr IonEvent))
  | _, _, [] => some []
  | st, cs, cmd :: cmds => match (sendN F units m n st cmd).bind fun r => loopN F units m n r cs with
    | none => none
    | some (.error e, _) => some [.error e]
    | some (.ok e, .active st' cs') => (runN F units m n st' cs' cmds).map (.ok e :: ·)
    | some (.ok e, _) => if cmds = [] then some [.ok e] else none

theorem runN_sound {F : FloatText} {units : Bytes → List Nat} {m n : Nat} : ∀ {cmds : List Cmd} {st : Status} {cs : List Bytes} {l : List (Except PyErr IonEvent)},
    runN F units m n st cs cmds = some l → Blocking.run (TextReader.send F units) IonEvent.eventType ION_STREAM_END_EVENT (.active st cs) cmds = l := by
  intro cmds
  induction cmds with
  | nil => intro st cs l h; simpa [runN, Blocking.run] using h
  | cons cmd cmds ih =>
    intro st cs l h
    simp only [runN] at h
    simp only [Blocking.run, Blocking.send]
    cases hs : sendN F units m n st cmd with
    | none => rw [hs] at h; cases h
    | some r =>
      rw [hs] at h
      rw [sendN_sound hs]
      simp only [Option.bind_some] at h
      cases hl : loopN F units m n r cs with
      | none => rw [hl] at h; cases h
      | some o =>
        rw [hl] at h
        rw [loopN_sound hl]
        obtain ⟨x, y⟩ := o
        cases x with
        | error e => simpa using h
        | ok e =>
          cases y with
          | active st' cs' =>
            dsimp only at h ⊢
            cases hr : runN F units m n st' cs' cmds with
            | none => rw [hr] at h; cases h
            | some l' =>
              rw [hr] at h
              rw [ih hr]
              simpa using h
          | ended =>
            dsimp only at h ⊢
            split at h
            · rename_i hc; subst hc; simpa [Blocking.run] using h
            · cases h
          | dead =>
            dsimp only at h ⊢
            split at h
            · rename_i hc; subst hc; simpa [Blocking.run] using h
            · cases h

/-- What is compared in the examples. -/
def brief (r : Except PyErr IonEvent) : Except PyErr (IonEventType × Option IonType) := r.map fun e => (e.eventType, e.ionType)

theorem brief_eval {F : FloatText} {ps : List (List Nat)} {cmds : List Cmd} {l : List (Except PyErr (IonEventType × Option IonType))} (m n : Nat)
    (h : (runN F byteUnits m n .fresh (ps.map toBytes) cmds).map (List.map brief) = some l) : (askBytes F ps cmds).map brief = l := by
  cases hr : runN F byteUnits m n .fresh (ps.map toBytes) cmds with
  | none => rw [hr] at h; cases h
  | some l' =>
    rw [hr] at h
    unfold askBytes
    rw [runN_sound hr]
    simpa using h

/-- `('' /`, a carriage return, ` a)` -/
def slashReturn : List Nat := chars ['(','\'','\'',' ','/','\r',' ','a',')']

/-- **C53, what is missing**  In the s-expression `('' /⏎ a)`, with a carriage return after the slash, the reader gives a line feed back to its queue where it had read the carriage
return.  If the text comes in one piece, the queue refuses it (`ValueError`); if a piece ends after the carriage return, the queue takes it and the text is read. -/
theorem C53_return_after_slash (F : FloatText) :
    (askBytes F [slashReturn] (List.replicate 6 .next)).map brief = [.ok (.containerStart, some .sexp), .error .valueError] ∧
    (askBytes F [slashReturn.take 6, slashReturn.drop 6] (List.replicate 6 .next)).map brief =
      [.ok (.containerStart, some .sexp), .ok (.scalar, some .symbol), .ok (.scalar, some .symbol), .ok (.scalar, some .symbol), .ok (.containerEnd, some .sexp), .ok (.streamEnd, none)] := by
  exact ⟨brief_eval 60 8 rfl, brief_eval 60 8 rfl⟩

/-- **C53, what is missing**  So the answers may depend on the pieces. -/
theorem C53_chunks_matter (F : FloatText) : ∃ t ps ps' cmds, (∀ c ∈ t, c < 128) ∧ Pieces ps t ∧ Pieces ps' t ∧ askBytes F ps cmds ≠ askBytes F ps' cmds := by
  refine ⟨slashReturn, [slashReturn], [slashReturn.take 6, slashReturn.drop 6], List.replicate 6 .next, by decide, ⟨rfl, by decide⟩, ⟨rfl, by decide⟩, fun h => ?_⟩
  have h1 := C53_return_after_slash F
  rw [h] at h1
  rw [h1.2] at h1
  exact absurd h1.1 (by simp)

end Ion.Text
