import Verif.TextSkip
import Verif.Props.TextChunks
set_option linter.unusedSimpArgs false
/-!
# C56: skipping a container of a text is reading it

For any text, Ion or not, and any history.  The two exceptions of C51 apply: after the end of a sibling, SKIP goes astray (`C51_skip_after_sibling`), and where reading says `STREAM_END` within the
container, SKIP never answers.
-/
namespace Ion.Text
open Ion Ion.TextReader Ion.TextReader.Whole
open Ion.RawReader (Cmd)

/-- The last start or end of a container among these events. -/
def lastContainer (es : List IonEvent) : Option IonEvent :=
  (es.filter fun e => e.eventType = .containerStart ∨ e.eventType = .containerEnd).getLast?

theorem lastContainer_snoc {es : List IonEvent} {e : IonEvent} :
    lastContainer (es ++ [e]) = if e.eventType = .containerStart ∨ e.eventType = .containerEnd then some e else lastContainer es := by
  unfold lastContainer
  rw [List.filter_append]
  by_cases h : e.eventType = .containerStart ∨ e.eventType = .containerEnd
  · rw [if_pos h]
    simp only [List.filter_cons, h, decide_true, if_true, List.filter_nil, List.getLast?_append, List.getLast?_singleton, Option.some_or]
  · rw [if_neg h]
    simp only [List.filter_cons, h, decide_false, Bool.false_eq_true, if_false, List.filter_nil, List.append_nil]

theorem last_folds {es : List IonEvent} {b : IonEvent} (h : lastContainer es = some b) :
    (b.eventType = .containerStart → es.foldl lastOpens false = true) ∧ es.foldl lastDepth none = b.depth := by
  have key : ∀ (r : List IonEvent), lastContainer r.reverse = some b → (b.eventType = .containerStart → r.reverse.foldl lastOpens false = true) ∧ r.reverse.foldl lastDepth none = b.depth := by
    intro r
    induction r with
    | nil => intro h; cases h
    | cons e r ih =>
      intro h
      rw [List.reverse_cons, lastContainer_snoc] at h
      rw [List.reverse_cons, List.foldl_append, List.foldl_append]
      simp only [List.foldl_cons, List.foldl_nil]
      by_cases hc : e.eventType = .containerStart ∨ e.eventType = .containerEnd
      · rw [if_pos hc] at h
        cases h
        refine ⟨fun hs => by simp [lastOpens, hs], ?_⟩
        rcases hc with hc | hc <;> simp [lastDepth, hc]
      · rw [if_neg hc] at h
        have h1 : ∀ o, lastOpens o e = o := by intro o; unfold lastOpens; split <;> simp_all
        have h2 : ∀ o, lastDepth o e = o := by intro o; unfold lastDepth; split <;> simp_all
        rw [h1, h2]
        exact ih h
  have := key es.reverse
  rw [List.reverse_reverse] at this
  exact this h

/-- What SKIP answers, and what follows, if reading has answered with `es` and then `a`: `asked` are the answers to requests, after `before` has been answered with `es0`, where `b` is the start of
the container. -/
def SkipsLikeReading (asked : List Cmd → List (Except PyErr IonEvent)) (before : List Cmd) (es0 es : List IonEvent) (b : IonEvent) (a : Except PyErr IonEvent) (rs : List Cmd) : Prop :=
  (∀ err, a = .error err → asked (before ++ .skip :: rs) = es0.map .ok ++ [.error err]) ∧
  (∀ e, a = .ok e → e.eventType = .streamEnd → asked (before ++ .skip :: rs) = es0.map .ok ++ [.error .modelFuel]) ∧
  (∀ e, a = .ok e → e.eventType = .containerEnd → e.depth = b.depth → ∃ later,
    asked (before ++ .skip :: rs) = es0.map .ok ++ .ok e :: later ∧
    asked (before ++ (List.replicate es.length .next ++ .next :: rs)) = es0.map .ok ++ (es.map .ok ++ .ok e :: later))

theorem skips_like_reading {F : FloatText} {units : Bytes → List Nat} {st : Blocking.State Status} (ht : Track units false none st) {before : List Cmd} {es0 es : List IonEvent} {a : Except PyErr IonEvent}
    (hb : asks F units st before = es0.map .ok) {b : IonEvent} (hl : lastContainer es0 = some b) (hs : b.eventType = .containerStart)
    (hr : asks F units st (before ++ List.replicate (es.length + 1) .next) = es0.map .ok ++ (es.map .ok ++ [a]))
    (hes : ∀ e ∈ es, ¬ (e.eventType = .containerEnd ∧ e.depth = b.depth) ∧ e.eventType ≠ .streamEnd) (rs : List Cmd) : SkipsLikeReading (asks F units st) before es0 es b a rs := by
  obtain ⟨st1, h1, h2⟩ := asks_split before ht hb
  obtain ⟨h3, h4⟩ := last_folds hl
  rw [h3 hs, h4] at h1
  rw [h2] at hr
  have hr := List.append_cancel_left hr
  cases hd : b.depth with
  | none =>
    rw [hd] at h1
    cases h1 with
    | paused _ _ _ _ h5 => cases (h5 rfl).1
    | ended =>
      cases es with
      | nil =>
        have hr : [Except.error PyErr.stopIteration] = [a] := hr
        cases hr
        refine ⟨?_, ?_, ?_⟩
        · rintro err ⟨⟩; rw [h2]; rfl
        · rintro e ⟨⟩
        · rintro e ⟨⟩
      | cons e es => cases hr
    | dead =>
      cases es with
      | nil =>
        have hr : [Except.error PyErr.stopIteration] = [a] := hr
        cases hr
        refine ⟨?_, ?_, ?_⟩
        · rintro err ⟨⟩; rw [h2]; rfl
        · rintro e ⟨⟩
        · rintro e ⟨⟩
      | cons e es => cases hr
  | some d =>
    rw [hd] at h1 hes
    obtain ⟨g1, g2, g3⟩ := skip_reads (F := F) h1 hr fun e he => ⟨fun hc => (hes e he).1 hc, (hes e he).2⟩
    refine ⟨?_, ?_, ?_⟩
    · intro err ha; rw [h2, g1 err ha]
    · intro e ha he; rw [h2, g2 e ha he]
    · intro e ha he hde
      obtain ⟨later, g4, g5⟩ := g3 e ha ⟨he, by rw [hde, hd]⟩ rs
      refine ⟨later, by rw [h2, g4], ?_⟩
      rw [h2, ← g5, List.replicate_succ', List.append_assoc]
      rfl

theorem track_start {units : Bytes → List Nat} {f : List Nat → Bytes} {t : List Nat} {ps : List (List Nat)} (hp : Pieces ps t) (hu : ∀ p ∈ ps, units (f p) = p) (hc : ∀ c ∈ t, c ≤ 0x10FFFF)
    (hf : Fine t) : Track units false none (.active .fresh (ps.map f)) := by
  cases twins (F := ⟨fun _ => [], fun _ => .error .valueError⟩) hp hp hu hu hc hf with
  | fresh h1 _ h3 h4 => exact .fresh h1 h3 h4

/-- **C56** (`str`)  Whatever the text is, in whatever pieces it is read, and whatever has been requested before: if the last start or end of a container that was delivered is the start `b`, then SKIP
gives the end of that container, as reading with NEXT would, and all later answers are the same; if reading raises before, SKIP raises the same. -/
theorem C56_skip_is_reading_str_partial (F : FloatText) (t : List Nat) (hc : ∀ c ∈ t, c ≤ 0x10FFFF) (hf : Fine t) (ps : List (List Nat)) (hp : Pieces ps t) (before : List Cmd) (es0 : List IonEvent)
    (hb : askStr F ps before = es0.map .ok) (b : IonEvent) (hl : lastContainer es0 = some b) (hs : b.eventType = .containerStart) (es : List IonEvent) (a : Except PyErr IonEvent)
    (hr : askStr F ps (before ++ List.replicate (es.length + 1) .next) = es0.map .ok ++ (es.map .ok ++ [a]))
    (hes : ∀ e ∈ es, ¬ (e.eventType = .containerEnd ∧ e.depth = b.depth) ∧ e.eventType ≠ .streamEnd) (rs : List Cmd) : SkipsLikeReading (askStr F ps) before es0 es b a rs :=
  skips_like_reading (track_start hp (fun p h => units_str fun c hc' => by have := piece_bound hp hc p h c hc'; omega) hc hf) hb hl hs hr hes rs

/-- **C56** (`bytes`)  The same for `bytes`. -/
theorem C56_skip_is_reading_bytes_partial (F : FloatText) (t : List Nat) (hc : ∀ c ∈ t, c < 256) (hf : Fine t) (ps : List (List Nat)) (hp : Pieces ps t) (before : List Cmd) (es0 : List IonEvent)
    (hb : askBytes F ps before = es0.map .ok) (b : IonEvent) (hl : lastContainer es0 = some b) (hs : b.eventType = .containerStart) (es : List IonEvent) (a : Except PyErr IonEvent)
    (hr : askBytes F ps (before ++ List.replicate (es.length + 1) .next) = es0.map .ok ++ (es.map .ok ++ [a]))
    (hes : ∀ e ∈ es, ¬ (e.eventType = .containerEnd ∧ e.depth = b.depth) ∧ e.eventType ≠ .streamEnd) (rs : List Cmd) : SkipsLikeReading (askBytes F ps) before es0 es b a rs :=
  skips_like_reading (track_start hp (fun p h => units_bytes fun c hc' => piece_bound hp hc p h c hc') (fun c h => by have := hc c h; omega) hf) hb hl hs hr hes rs

/-- A text in two pieces. -/
def sample : List (List Nat) := [chars ['[','1',',','{','a',':','2'], chars ['}',',','3',']',' ','4',' ']]

/-- The events of the sample after its first two. -/
def sampleEvents : List IonEvent := [
  { eventType := .containerStart, ionType := some .struct, depth := some 1 },
  { eventType := .scalar, ionType := some .int, value := .ok (some (.int 2)), fieldName := some (.tok ⟨some (chars ['a']), none, none⟩), depth := some 2 },
  { eventType := .containerEnd, ionType := some .struct, depth := some 1 },
  { eventType := .scalar, ionType := some .int, value := .ok (some (.int 3)), depth := some 1 }]

/-- The first two. -/
def sampleStart : List IonEvent := [
  { eventType := .containerStart, ionType := some .list, depth := some 0 }, { eventType := .scalar, ionType := some .int, value := .ok (some (.int 1)), depth := some 1 }]

def sampleEnd : IonEvent := { eventType := .containerEnd, ionType := some .list, depth := some 0 }

theorem ask_eval {F : FloatText} {ps : List (List Nat)} {cmds : List Cmd} {l : List (Except PyErr IonEvent)} (m n : Nat) (h : runN F byteUnits m n .fresh (ps.map toBytes) cmds = some l) : askBytes F ps cmds = l := by
  unfold askBytes
  rw [runN_sound h]

/-- The hypotheses are met, by a container with another one in it that is skipped after one of its values; then `4` is read. -/
example (F : FloatText) : ∃ later, askBytes F sample [.next, .next, .skip, .next, .next] = sampleStart.map .ok ++ .ok sampleEnd :: later :=
  have h := (C56_skip_is_reading_bytes_partial F (chars "[1,{a:2},3] 4 ".toList) (by decide) (fine_of rfl) sample ⟨rfl, by decide⟩ [.next, .next] sampleStart (ask_eval 60 8 rfl) _ rfl rfl sampleEvents
    (.ok sampleEnd) (ask_eval 60 8 rfl) (by decide) [.next, .next]).2.2 sampleEnd rfl rfl rfl
  h.imp fun _ h => h.1

/-- And reading gives the end of the stream where SKIP never answers. -/
example (F : FloatText) : askBytes F [chars ['[','1',',','2']] [.next, .skip] = [.ok { eventType := .containerStart, ionType := some .list, depth := some 0 }, .error .modelFuel] :=
  (C56_skip_is_reading_bytes_partial F (chars "[1,2".toList) (by decide) (fine_of rfl) [chars ['[','1',',','2']] ⟨rfl, by decide⟩ [.next]
    [{ eventType := .containerStart, ionType := some .list, depth := some 0 }] (ask_eval 60 8 rfl) _ rfl rfl
    [{ eventType := .scalar, ionType := some .int, value := .ok (some (.int 1)), depth := some 1 }, { eventType := .scalar, ionType := some .int, value := .ok (some (.int 2)), depth := some 1 }]
    (.ok ION_STREAM_END_EVENT) (ask_eval 60 8 rfl) (by decide) []).2.1 ION_STREAM_END_EVENT rfl rfl

end Ion.Text
