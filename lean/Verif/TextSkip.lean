import Verif.TextPaths
set_option linter.unusedSimpArgs false
/-!
# SKIP of the text reader goes where reading goes

Two readers in the same state with the same chunks, one of which skips to the end of a container, the other reads: they go through the same states.
-/
namespace Ion.TextReader.Whole
open Ion Ion.Queue Ion.TextReader Ion.TextReader.Calm
open Ion.RawReader (Cmd)

variable {F : FloatText} {s : St} {p l : List Nat} {units : Bytes → List Nat}

/-- Here a reader that does not skip answers. -/
def Rests : Act → List Nat → Prop
  | .err _, _ => True
  | .emit _ _, _ => True
  | .read _ _ _, l => l = []
  | .wait _, _ => True
  | _, _ => False

theorem both_read {c f : Bool} {k : Nat → Act} {x : Nat} {q : BufferQueue Nat} {cs : List Bytes} (h : Held units q cs p (x :: l)) :
    ∃ q' cs', Held units q' cs' (x :: p) l ∧ ∀ (depth : Int) (sk : Bool), (sk = true → c = false) → Reach F units (rep F depth sk (.read c f k) q) cs (rep F depth sk (k x) q') cs' := by
  have now : ∀ {q : BufferQueue Nat} {cs : List Bytes}, Held units q cs p (x :: l) → q.size ≠ 0 → ∃ q', Held units q' cs (x :: p) l ∧ ∀ (depth : Int) (sk : Bool),
      rep F depth sk (.read c f k) q = rep F depth sk (k x) q' := by
    intro q cs h h0
    rcases held_size h with ⟨h1, _⟩ | ⟨h1, x', l', q', h2, h3, h4⟩
    · exact absurd h1 h0
    · cases h2
      exact ⟨q', h4, fun _ _ => rep_congr (by rw [advance.eq_def]; simp [h1, h3])⟩
  by_cases h0 : q.size = 0
  · cases cs with
    | nil =>
      rcases held_size h with ⟨_, h2⟩ | ⟨h1, _⟩
      · simp at h2
      · exact absurd h0 h1
    | cons d ds =>
      have hd := h.chunks d (by simp)
      have h' := held_extend h
      obtain ⟨q', h1, h2⟩ := now h' (by
        rcases held_size h with ⟨_, h2⟩ | ⟨h1, _⟩
        · obtain ⟨⟨rest, h3, h4⟩, _⟩ := h
          have := (rel_step h3 (.extend (units d)) hd).2.size
          simp only [step, Spec.Flat.step] at this
          rw [this]
          have : (units d).length ≠ 0 := by simpa using hd
          simp only [List.length_append]; omega
        · exact absurd h0 h1)
      refine ⟨q', ds, h1, fun depth sk hc => ?_⟩
      rw [← h2, rep_block h0]
      have : (sk && c) = false := by
        cases hsk : sk with
        | false => rfl
        | true => rw [hc hsk]; rfl
      rw [this]
      simp only [Bool.false_eq_true, if_false]
      refine .feed (by cases c; exact .inr rfl; exact .inl rfl) (.eq ?_)
      simp only [send, hd, if_false, rep]
  · obtain ⟨q', h1, h2⟩ := now h h0
    exact ⟨q', cs, h1, fun depth sk _ => .eq (h2 depth sk)⟩

/-- The way to the next answer, for readers that skip and for those that do not. -/
theorem both (m : Nat) : ∀ (a : Act) (p l : List Nat) (opens : List IonType), Fit opens a p l → Below m a l →
    ∃ b p' l', Rests b l' ∧ Fit opens b p' l' ∧ Below m b l' ∧ ∀ (units : Bytes → List Nat) q cs, Held units q cs p l → ∃ q' cs', Held units q' cs' p' l' ∧
      ∀ (depth : Int) (sk : Bool), (sk = true → opens ≠ []) → Reach F units (rep F depth sk a q) cs (rep F depth sk b q') cs' := by
  induction m using Nat.strongRecOn with
  | _ m ihm =>
    intro a
    have here : ∀ {a : Act} {p l : List Nat} {opens : List IonType}, Rests a l → Fit opens a p l → Below m a l →
        ∃ b p' l', Rests b l' ∧ Fit opens b p' l' ∧ Below m b l' ∧ ∀ (units : Bytes → List Nat) q cs, Held units q cs p l → ∃ q' cs', Held units q' cs' p' l' ∧
          ∀ (depth : Int) (sk : Bool), (sk = true → opens ≠ []) → Reach F units (rep F depth sk a q) cs (rep F depth sk b q') cs' :=
      fun h1 h2 h3 => ⟨_, _, _, h1, h2, h3, fun units q cs h => ⟨q, cs, h, fun _ _ _ => .refl⟩⟩
    induction a with
    | err e => intro p l opens hf hb; exact here trivial hf hb
    | emit e s => intro p l opens hf hb; exact here trivial hf hb
    | read c f k ih =>
      intro p l opens hf hb
      cases l with
      | nil => exact here rfl hf hb
      | cons x l =>
        obtain ⟨b, p', l', h1, h2, h2', h4⟩ := ih x (x :: p) l opens ⟨hf.ok.1 _ _ rfl, hf.safe _ _ hf.last (.inr rfl), hf.last.2, fine_read hf.fine, hf.nest x, hf.level.2 x⟩ (hb _ _ rfl)
        refine ⟨b, p', l', h1, h2, h2', fun units q cs hh => ?_⟩
        obtain ⟨q1, cs1, h5, h6⟩ := both_read (F := F) (c := c) (f := f) (k := k) hh
        obtain ⟨q', cs', h7, h8⟩ := h4 units q1 cs1 h5
        refine ⟨q', cs', h7, fun depth sk ho => (h6 depth sk fun hsk => ?_).trans (h8 depth sk ho)⟩
        cases c with
        | false => rfl
        | true => exact absurd (hf.level.1 rfl) (ho hsk)
    | unread c a ih =>
      intro p l opens hf hb
      obtain ⟨p0, rfl, h0⟩ := hf.ok
      obtain ⟨n, hn, hc, hsafe⟩ := hf.safe
      simp only [List.length_cons, Nat.succ.injEq] at hn
      subst hn
      obtain ⟨b, p', l', h1, h2, h2', h4⟩ := ih p0 (c :: l) opens ⟨h0, hsafe, ⟨fun hh => absurd hh hc, hf.last⟩, fine_unread hf.fine, hf.nest, hf.level⟩ hb
      refine ⟨b, p', l', h1, h2, h2', fun units q cs hh => ?_⟩
      obtain ⟨q1, h5, h6⟩ := held_unread hh
      obtain ⟨q', cs', h7, h8⟩ := h4 units q1 cs h6
      exact ⟨q', cs', h7, fun depth sk ho => .trans (.eq (rep_congr (by rw [advance.eq_def]; simp [h5]))) (h8 depth sk ho)⟩
    | wait a ih => intro p l opens hf hb; exact here trivial hf hb
    | go s =>
      intro p l opens hf hb
      obtain ⟨b, p', l', h1, h2, h2', h4⟩ := ihm _ hb _ _ _ _ (hf.next (F := F)) below_next
      have hmono : ∀ {a : Act} {l : List Nat} {m m' : Nat}, m ≤ m' → Below m a l → Below m' a l := by
        intro a
        induction a with
        | err e => intros; trivial
        | emit e s => intro l m m' h h'; exact Nat.lt_of_lt_of_le h' h
        | read c f k ih => intro l m m' h h' x l' hl; exact ih x h (h' x l' hl)
        | unread c a ih => intro l m m' h h'; exact ih h h'
        | wait a ih => intros; trivial
        | go s => intro l m m' h h'; exact Nat.lt_of_lt_of_le h' h
      refine ⟨b, p', l', h1, h2, hmono (Nat.le_of_lt hb) h2', fun units q cs hh => ?_⟩
      obtain ⟨q', cs', h5, h6⟩ := h4 units q cs hh
      exact ⟨q', cs', h5, fun depth sk ho => .trans (.eq (rep_congr (by rw [advance.eq_def]))) (h6 depth sk ho)⟩

/-- What a reader that skips answers, and where it is, when a reader that does not skip has answered `o'`. -/
inductive Follows (F : FloatText) (units : Bytes → List Nat) (depth : Int) (skips : Except PyErr IonEvent × Status → List Bytes → Except PyErr IonEvent × Blocking.State Status)
    (o : Except PyErr IonEvent × Blocking.State Status) : Except PyErr IonEvent × Blocking.State Status → Prop
  | error (err : PyErr) (st : Blocking.State Status) : o = (.error err, .dead) → Follows F units depth skips o (.error err, st)
  | ended : o = (.error .modelFuel, .dead) → Follows F units depth skips o (.ok ION_STREAM_END_EVENT, .ended)
  | stops (e : IonEvent) (s : St) (q : BufferQueue Nat) (cs : List Bytes) (p l : List Nat) (opens : List IonType) : Real e → Stops depth true e → e.depth = some depth → Held units q cs p l →
      Fit opens (.go s) p l → o = (.ok e, .active (.paused e s q depth) cs) → Follows F units depth skips o (.ok e, .active (.paused e s q depth) cs)
  | on (e : IonEvent) (s : St) (q : BufferQueue Nat) (d : Int) (cs : List Bytes) (p l : List Nat) (opens : List IonType) : Real e → ¬ Stops depth true e → Held units q cs p l →
      Fit opens (.go s) p l → depth + 1 ≤ (opens.length : Int) → o = skips (rep F depth true (.go s) q) cs → Follows F units depth skips o (.ok e, .active (.paused e s q d) cs)

/-- After an event. -/
theorem follows_emit {depth d : Int} {e : IonEvent} {q : BufferQueue Nat} {cs : List Bytes} {opens : List IonType} (hf : Fit opens (.emit e s) p l)
    (hi : depth + 1 ≤ (opens.length : Int)) (hq : Held units q cs p l) :
    Follows F units depth (loopOf F units) (loopOf F units (rep F depth true (.emit e s) q) cs) (.ok e, .active (.paused e s q (newDepth d false e)) cs) := by
  obtain ⟨o', h1, h2, h3⟩ := hf.nest
  have hf' : Fit o' (.go s) p l := ⟨hf.ok.2, hf.safe, hf.last, hf.fine, h3, hf.level⟩
  by_cases hs : Stops depth true e
  · obtain ⟨he, hle⟩ := hs rfl
    obtain ⟨ty, h4, h5⟩ := nest_end h1 he
    have hdp : e.depth = some depth := by
      rw [h5] at hle ⊢
      simp only [Option.getD_some] at hle
      rw [h4] at hi
      simp only [List.length_cons, Int.natCast_add, Int.natCast_one] at hi
      congr 1
      omega
    have hn : newDepth d false e = depth := by unfold newDepth; rw [if_pos ⟨rfl, .inr he⟩, hdp]; rfl
    rw [hn]
    refine .stops e s q cs p l o' hf.ok.1 hs hdp hq hf' ?_
    rw [rep_emit hs, loop_event hf.ok.1]
    have : newDepth depth true e = depth := by unfold newDepth; rw [if_neg (by simp)]
    rw [this]
  · refine .on e s q _ cs p l o' hf.ok.1 hs hq hf' ?_ (by rw [rep_skip hs])
    by_cases he : e.eventType = .containerEnd
    · obtain ⟨ty, h4, h5⟩ := nest_end h1 he
      have : ¬ e.depth.getD 0 ≤ depth := fun h => hs fun _ => ⟨he, h⟩
      rw [h5] at this
      simp only [Option.getD_some] at this
      omega
    · by_cases he' : e.eventType = .containerStart
      · obtain ⟨ty, h4, h5⟩ := nest_start h1 he'
        rw [h4]
        simp only [List.length_cons, Int.natCast_add, Int.natCast_one]
        omega
      · rw [nest_same h1 he' he]; exact hi

theorem loop_signal {st : Status} : loopOf F units (.ok ION_STREAM_INCOMPLETE_EVENT, st) [] = loopOf F units (TextReader.send F units st .next) [] := by
  simp only [loopOf, Blocking.loop, Blocking.atEof]
  rw [Blocking.atEofLoop.eq_def]
  rfl

theorem loop_end {st : Status} : loopOf F units (.ok ION_STREAM_END_EVENT, st) [] = (.ok ION_STREAM_END_EVENT, .ended) := by
  simp only [loopOf, Blocking.loop, Blocking.atEof]
  rw [Blocking.atEofLoop.eq_def]
  rfl

/-- Replies of a reader that does not skip, and of one that does, at the end of the text. -/
def Pair (F : FloatText) (units : Bytes → List Nat) (depth : Int) (r' r : Except PyErr IonEvent × Status) : Prop :=
  ∃ (d : Int) (a : Act) (p l : List Nat) (opens : List IonType) (q : BufferQueue Nat), Fit opens a p l ∧ depth + 1 ≤ (opens.length : Int) ∧ Held units q [] p l ∧ r' = rep F d false a q ∧ r = rep F depth true a q

theorem pair_rest {depth : Int} (hd : 0 ≤ depth) {r' r : Except PyErr IonEvent × Status} (h : Pair F units depth r' r) :
    ∃ (d : Int) (b : Act) (p l : List Nat) (opens : List IonType) (q : BufferQueue Nat), Rests b l ∧ Fit opens b p l ∧ depth + 1 ≤ (opens.length : Int) ∧ Held units q [] p l ∧ r' = rep F d false b q ∧
      r = rep F depth true b q := by
  obtain ⟨d, a, p, l, opens, q, h1, h2, h3, rfl, rfl⟩ := h
  obtain ⟨m, hm⟩ := below_exists a l
  obtain ⟨b, p', l', h4, h5, -, h6⟩ := both (F := F) m a p l opens h1 hm
  obtain ⟨q', cs', h7, h8⟩ := h6 units q [] h3
  have e1 := (h8 d false (by simp)).done
  have e2 := (h8 depth true (fun _ ho => by rw [ho] at h2; simp at h2; omega)).done
  obtain ⟨e1, rfl⟩ := e1
  exact ⟨d, b, p', l', opens, q', h4, h5, h2, h7, e1, e2.1⟩

/-- At the end of the text the reader waits: both readers go on with `NEXT`. -/
theorem pair_flush {depth d : Int} {f : Bool} {k : Nat → Act} {opens : List IonType} {q : BufferQueue Nat} (hf : Fit opens (.read false f k) p []) (hi : depth + 1 ≤ (opens.length : Int))
    (hq : Held units q [] p []) : Pair F units depth (TextReader.send F units (.blocked false f k q d false) .next) (TextReader.send F units (.blocked false f k q depth true) .next) := by
  cases f with
  | false => exact ⟨d, .err .ionException, p, [], opens, q, ⟨trivial, raised_ion, trivial, hf.fine, trivial, trivial⟩, hi, hq, by rw [rep_err]; rfl, by rw [rep_err]; rfl⟩
  | true =>
    obtain ⟨q3, h9, h10, h11⟩ := held_eof hq
    refine ⟨d, k EOF, EOF :: p, [], opens, q3, ⟨hf.ok.2 rfl rfl, hf.safe EOF [] ⟨fun _ => rfl, trivial⟩ (.inl rfl), trivial, fine_eof hf.fine, hf.nest _, hf.level.2 _⟩, hi, h11, ?_, ?_⟩
    · exact rep_congr (by rw [advance.eq_def]; simp [h9, h10])
    · exact rep_congr (by rw [advance.eq_def]; simp [h9, h10])

theorem eof_follows {depth : Int} (hd : 0 ≤ depth) {r' r : Except PyErr IonEvent × Status} {o' : Except PyErr IonEvent × Blocking.State Status}
    (h : Blocking.atEofLoop (TextReader.send F units) IonEvent.eventType ION_STREAM_END_EVENT r' = some o') (hp : Pair F units depth r' r) :
    Follows F units depth (loopOf F units) (loopOf F units r []) o' := by
  refine Blocking.atEofLoop.partial_correctness (TextReader.send F units) IonEvent.eventType ION_STREAM_END_EVENT
    (fun r' o' => ∀ r, Pair F units depth r' r → Follows F units depth (loopOf F units) (loopOf F units r []) o') ?_ r' o' h r hp
  intro f ih r' o' h r hp
  obtain ⟨d, b, p, l, opens, q, h1, h2, h3, h4, rfl, rfl⟩ := pair_rest hd hp
  cases b with
  | err e =>
    rw [rep_err] at h ⊢
    cases h
    rw [loop_error]
    exact .error _ _ rfl
  | emit e s =>
    rw [rep_emit (by rintro ⟨⟩)] at h
    have he : Real e := h2.ok.1
    have h9 : e.eventType ≠ .streamEnd := by intro hc; rw [Real, hc] at he; simp [IonEventType.isStreamSignal] at he
    have h10 : e.eventType ≠ .incomplete := by intro hc; rw [Real, hc] at he; simp [IonEventType.isStreamSignal] at he
    simp only [h9, h10, if_false] at h
    cases h
    exact follows_emit h2 h3 h4
  | read c f' k =>
    have h1 : l = [] := h1
    subst h1
    have hc : c = false := by
      cases c with
      | false => rfl
      | true =>
        have := h2.level.1 rfl
        rw [this] at h3
        simp at h3; omega
    subst hc
    rw [rep_block (held_done h4).2] at h ⊢
    simp only [Bool.and_false, Bool.false_eq_true, if_false] at h ⊢
    rw [loop_signal]
    have h' : f (TextReader.send F units (.blocked false f' k q d false) .next) = some o' := h
    exact ih _ _ h' _ (pair_flush h2 h3 h4)
  | wait a =>
    have h1 : l = [] := h2.ok
    subst h1
    rw [rep_wait (held_done h4).2] at h ⊢
    cases h
    simp only [if_true]
    rw [loop_error]
    exact .ended rfl
  | unread c a => exact h1.elim
  | go s => exact h1.elim

theorem eof_answers {depth : Int} (hd : 0 ≤ depth) {r' r : Except PyErr IonEvent × Status} {o : Except PyErr IonEvent × Blocking.State Status}
    (h : Blocking.atEofLoop (TextReader.send F units) IonEvent.eventType ION_STREAM_END_EVENT r = some o) (hp : Pair F units depth r' r) :
    ∃ o', Blocking.atEofLoop (TextReader.send F units) IonEvent.eventType ION_STREAM_END_EVENT r' = some o' := by
  refine Blocking.atEofLoop.partial_correctness (TextReader.send F units) IonEvent.eventType ION_STREAM_END_EVENT
    (fun r _ => ∀ r', Pair F units depth r' r → ∃ o', Blocking.atEofLoop (TextReader.send F units) IonEvent.eventType ION_STREAM_END_EVENT r' = some o') ?_ r o h r' hp
  intro f ih r o h r' hp
  obtain ⟨d, b, p, l, opens, q, h1, h2, h3, h4, rfl, rfl⟩ := pair_rest hd hp
  cases b with
  | err e => rw [rep_err, Blocking.atEofLoop.eq_def]; exact ⟨_, rfl⟩
  | emit e s =>
    have he : Real e := h2.ok.1
    have h9 : e.eventType ≠ .streamEnd := by intro hc; rw [Real, hc] at he; simp [IonEventType.isStreamSignal] at he
    have h10 : e.eventType ≠ .incomplete := by intro hc; rw [Real, hc] at he; simp [IonEventType.isStreamSignal] at he
    rw [rep_emit (by rintro ⟨⟩), Blocking.atEofLoop.eq_def]
    simp only [h9, h10, if_false]
    exact ⟨_, rfl⟩
  | read c f' k =>
    have h1 : l = [] := h1
    subst h1
    have hc : c = false := by
      cases c with
      | false => rfl
      | true =>
        have := h2.level.1 rfl
        rw [this] at h3
        simp at h3; omega
    subst hc
    rw [rep_block (held_done h4).2] at h ⊢
    simp only [Bool.and_false, Bool.false_eq_true, if_false] at h ⊢
    rw [Blocking.atEofLoop.eq_def]
    have h' : f (TextReader.send F units (.blocked false f' k q depth true) .next) = some o := h
    exact ih _ _ h' _ (pair_flush h2 h3 h4)
  | wait a =>
    have h1 : l = [] := h2.ok
    subst h1
    rw [rep_wait (held_done h4).2, Blocking.atEofLoop.eq_def]
    exact ⟨_, rfl⟩
  | unread c a => exact h1.elim
  | go s => exact h1.elim

/-- One request. -/
theorem loop_follows {depth d : Int} {a : Act} {opens : List IonType} {q : BufferQueue Nat} {cs : List Bytes} (hd : 0 ≤ depth) (hf : Fit opens a p l) (hi : depth + 1 ≤ (opens.length : Int))
    (hq : Held units q cs p l) : Follows F units depth (loopOf F units) (loopOf F units (rep F depth true a q) cs) (loopOf F units (rep F d false a q) cs) := by
  obtain ⟨m, hm⟩ := below_exists a l
  obtain ⟨b, p', l', h1, h2, -, h3⟩ := both (F := F) m a p l opens hf hm
  obtain ⟨q', cs', h4, h5⟩ := h3 units q cs hq
  rw [(h5 d false (by simp)).loop, (h5 depth true (fun _ ho => by rw [ho] at hi; simp at hi; omega)).loop]
  have fin : l' = [] → Follows F units depth (loopOf F units) (loopOf F units (rep F depth true b q') cs') (loopOf F units (rep F d false b q') cs') := by
    rintro rfl
    obtain ⟨rfl, _⟩ := held_done h4
    have hp : Pair F units depth (rep F d false b q') (rep F depth true b q') := ⟨d, b, p', [], opens, q', h2, hi, h4, rfl, rfl⟩
    cases h : Blocking.atEofLoop (TextReader.send F units) IonEvent.eventType ION_STREAM_END_EVENT (rep F d false b q') with
    | some o' =>
      have : loopOf F units (rep F d false b q') [] = o' := by simp only [loopOf, Blocking.loop, Blocking.atEof]; rw [h]; rfl
      rw [this]
      exact eof_follows hd h hp
    | none =>
      have e1 : loopOf F units (rep F d false b q') [] = (.error .modelFuel, .dead) := by simp only [loopOf, Blocking.loop, Blocking.atEof]; rw [h]; rfl
      rw [e1]
      refine .error _ _ ?_
      cases h' : Blocking.atEofLoop (TextReader.send F units) IonEvent.eventType ION_STREAM_END_EVENT (rep F depth true b q') with
      | none => simp only [loopOf, Blocking.loop, Blocking.atEof]; rw [h']; rfl
      | some o =>
        obtain ⟨o', h6⟩ := eof_answers hd h' hp
        rw [h] at h6; cases h6
  cases b with
  | err e => rw [rep_err, rep_err, loop_error]; exact .error _ _ rfl
  | emit e s =>
    rw [rep_emit (sk := false) (by rintro ⟨⟩), loop_event h2.ok.1]
    exact follows_emit h2 hi h4
  | read c f k => exact fin h1
  | wait a => exact fin h2.ok
  | unread c a => exact h1.elim
  | go s => exact h1.elim

/-! ## Any history -/

/-- As `path'`; without skipping, the same containers are open. -/
theorem way {depth : Int} {sk : Bool} (hd : 0 ≤ depth) {a : Act} {opens : List IonType} (hf : Fit opens a p l) (ho : sk = true → opens ≠ []) :
    ∃ b p' l' opens', Final depth sk b l' ∧ Fit opens' b p' l' ∧ (sk = true → opens' ≠ []) ∧ (sk = false → opens' = opens) ∧
      ∀ (units : Bytes → List Nat) q cs, Held units q cs p l → ∃ q' cs', Held units q' cs' p' l' ∧ Reach F units (rep F depth sk a q) cs (rep F depth sk b q') cs' := by
  cases sk with
  | true =>
    obtain ⟨b, p', l', o', h1, h2, h3, h4⟩ := path' (F := F) hd hf ho
    exact ⟨b, p', l', o', h1, h2, h3, (by rintro ⟨⟩), h4⟩
  | false =>
    obtain ⟨m, hm⟩ := below_exists a l
    obtain ⟨b, p', l', h1, h2, -, h3⟩ := both (F := F) m a p l opens hf hm
    refine ⟨b, p', l', opens, ?_, h2, (by rintro ⟨⟩), fun _ => rfl, fun units q cs hq => ?_⟩
    · cases b <;> first | exact h1 | (rintro ⟨⟩)
    · obtain ⟨q', cs', h4, h5⟩ := h3 units q cs hq
      exact ⟨q', cs', h4, h5 depth false (by rintro ⟨⟩)⟩

/-- Where a request may lead. -/
inductive Lands (units : Bytes → List Nat) (depth : Int) (sk : Bool) (opens0 : List IonType) : Except PyErr IonEvent × Blocking.State Status → Prop
  | error (err : PyErr) : Lands units depth sk opens0 (.error err, .dead)
  | ended : Lands units depth sk opens0 (.ok ION_STREAM_END_EVENT, .ended)
  | event (e : IonEvent) (s : St) (q : BufferQueue Nat) (cs : List Bytes) (p l : List Nat) (opens : List IonType) : Fit opens (.emit e s) p l → Held units q cs p l → Stops depth sk e → (sk = false → opens = opens0) →
      Lands units depth sk opens0 (.ok e, .active (.paused e s q (newDepth depth sk e)) cs)

theorem eof_lands {depth : Int} {sk : Bool} (hd : 0 ≤ depth) {r : Except PyErr IonEvent × Status} {o : Except PyErr IonEvent × Blocking.State Status}
    (h : Blocking.atEofLoop (TextReader.send F units) IonEvent.eventType ION_STREAM_END_EVENT r = some o) {a : Act} {p l : List Nat} {opens opens0 : List IonType} {q : BufferQueue Nat} (hf : Fit opens a p l)
    (ho : sk = true → opens ≠ []) (ho' : sk = false → opens = opens0) (hq : Held units q [] p l) (hr : r = rep F depth sk a q) : Lands units depth sk opens0 o := by
  refine Blocking.atEofLoop.partial_correctness (TextReader.send F units) IonEvent.eventType ION_STREAM_END_EVENT
    (fun r o => ∀ (a : Act) (p l : List Nat) (opens : List IonType) (q : BufferQueue Nat), Fit opens a p l → (sk = true → opens ≠ []) → (sk = false → opens = opens0) → Held units q [] p l → r = rep F depth sk a q → Lands units depth sk opens0 o)
    ?_ r o h a p l opens q hf ho ho' hq hr
  rintro f ih r o h a p l opens q hf ho ho' hq rfl
  obtain ⟨b, p1, l1, o1, h1, h2, h3, h3', h4⟩ := way (F := F) hd hf ho
  have h3' : sk = false → o1 = opens0 := fun h => (h3' h).trans (ho' h)
  obtain ⟨q1, cs1, h5, h6⟩ := h4 units q [] hq
  obtain ⟨e1, rfl⟩ := h6.done
  rw [e1] at h
  cases b with
  | err e => rw [rep_err] at h; cases h; exact .error _
  | emit e s =>
    rw [rep_emit h1] at h
    have he : Real e := h2.ok.1
    have h9 : e.eventType ≠ .streamEnd := by intro hc; rw [Real, hc] at he; simp [IonEventType.isStreamSignal] at he
    have h10 : e.eventType ≠ .incomplete := by intro hc; rw [Real, hc] at he; simp [IonEventType.isStreamSignal] at he
    simp only [h9, h10, if_false] at h
    cases h
    exact .event e s q1 [] p1 l1 o1 h2 h5 h1 h3'
  | read c f' k =>
    have h1 : l1 = [] := h1
    subst h1
    rw [rep_block (held_done h5).2] at h
    by_cases hk : (sk && c) = true
    · rw [if_pos hk] at h
      cases h
      exact .error _
    · rw [if_neg hk] at h
      cases c with
      | true => cases h; exact .ended
      | false =>
        have h' : f (TextReader.send F units (.blocked false f' k q1 depth sk) .next) = some o := h
        cases f' with
        | false => exact ih _ _ h' (.err .ionException) p1 [] o1 q1 ⟨trivial, raised_ion, trivial, h2.fine, trivial, trivial⟩ h3 h3' h5 (by rw [rep_err]; rfl)
        | true =>
          obtain ⟨q3, h9, h10, h11⟩ := held_eof h5
          refine ih _ _ h' (k EOF) (EOF :: p1) [] o1 q3 ⟨h2.ok.2 rfl rfl, h2.safe EOF [] ⟨fun _ => rfl, trivial⟩ (.inl rfl), trivial, fine_eof h2.fine, h2.nest _, h2.level.2 _⟩ h3 h3' h11 ?_
          exact rep_congr (by rw [advance.eq_def]; simp [h9, h10])
  | wait a =>
    have h1 : l1 = [] := h2.ok
    subst h1
    rw [rep_wait (held_done h5).2] at h
    cases sk with
    | true => cases h; exact .error _
    | false => cases h; exact .ended
  | unread c a => exact h1.elim
  | go s => exact h1.elim

theorem loop_lands {depth : Int} {sk : Bool} {a : Act} {opens : List IonType} {q : BufferQueue Nat} {cs : List Bytes} (hd : 0 ≤ depth) (hf : Fit opens a p l) (ho : sk = true → opens ≠ [])
    (hq : Held units q cs p l) : Lands units depth sk opens (loopOf F units (rep F depth sk a q) cs) := by
  obtain ⟨b, p1, l1, o1, h1, h2, h3, h3', h4⟩ := way (F := F) hd hf ho
  have h3' : sk = false → o1 = opens := fun h => h3' h
  obtain ⟨q1, cs1, h5, h6⟩ := h4 units q cs hq
  rw [h6.loop]
  have fin : l1 = [] → Lands units depth sk opens (loopOf F units (rep F depth sk b q1) cs1) := by
    rintro rfl
    obtain ⟨rfl, _⟩ := held_done h5
    simp only [loopOf, Blocking.loop, Blocking.atEof]
    cases h : Blocking.atEofLoop (TextReader.send F units) IonEvent.eventType ION_STREAM_END_EVENT (rep F depth sk b q1) with
    | some o => exact eof_lands hd h h2 h3 h3' h5 rfl
    | none => exact .error _
  cases b with
  | err e => rw [rep_err, loop_error]; exact .error _
  | emit e s => rw [rep_emit h1, loop_event h2.ok.1]; exact .event e s q1 cs1 p1 l1 o1 h2 h5 h1 h3'
  | read c f k => exact fin h1
  | wait a => exact fin h2.ok
  | unread c a => exact h1.elim
  | go s => exact h1.elim

/-- The depth of the last start or end of a container. -/
def lastDepth (d : Option Int) (e : IonEvent) : Option Int :=
  match e.eventType with
  | .containerStart => e.depth
  | .containerEnd => e.depth
  | _ => d

/-- The state of the caller; `opened`: the last start or end of a container was a start, and it had the depth `ld`. -/
inductive Track (units : Bytes → List Nat) : Bool → Option Int → Blocking.State Status → Prop
  | fresh {cs : List Bytes} {t : List Nat} {ld : Option Int} : Held units .empty cs [] t → Fine t → EofLast t → Track units false ld (.active .fresh cs)
  | paused {opened : Bool} {ld : Option Int} {e : IonEvent} {s : St} {q : BufferQueue Nat} {depth : Int} {cs : List Bytes} {p l : List Nat} {opens : List IonType} : Held units q cs p l →
      Fit opens (.go s) p l → 0 ≤ depth → (e.depth = some 0 ∧ e.eventType ≠ .containerStart ↔ opens = []) → (opened = true → ld = some depth ∧ depth + 1 ≤ (opens.length : Int)) →
      Track units opened ld (.active (.paused e s q depth) cs)
  | ended {opened : Bool} {ld : Option Int} : Track units opened ld .ended
  | dead {opened : Bool} {ld : Option Int} : Track units opened ld .dead

theorem track_event {opened : Bool} {ld : Option Int} {depth : Int} {sk : Bool} {e : IonEvent} {q : BufferQueue Nat} {cs : List Bytes} {opens : List IonType} (hf : Fit opens (.emit e s) p l)
    (hq : Held units q cs p l) (hs : Stops depth sk e) (hd : 0 ≤ depth) (hld : sk = false → opened = true → ld = some depth ∧ depth + 1 ≤ (opens.length : Int)) :
    Track units (lastOpens opened e) (lastDepth ld e) (.active (.paused e s q (newDepth depth sk e)) cs) := by
  obtain ⟨o', h1, h2, h3⟩ := hf.nest
  refine .paused (opens := o') hq ⟨hf.ok.2, hf.safe, hf.last, hf.fine, h3, hf.level⟩ ?_ ?_ ?_
  · unfold newDepth
    split
    · rename_i hc
      rcases hc.2 with hc | hc
      · obtain ⟨ty, _, h5⟩ := nest_start h1 hc
        rw [h5]; simp
      · obtain ⟨ty, _, h5⟩ := nest_end h1 hc
        rw [h5]; simp
    · exact hd
  · by_cases he : e.eventType = .containerEnd
    · obtain ⟨ty, h4, h5⟩ := nest_end h1 he
      rw [h5, he]
      simp only [Option.some.injEq, Int.natCast_eq_zero, List.length_eq_zero_iff]
      exact ⟨fun h => h.1, fun h => ⟨h, by decide⟩⟩
    · by_cases he' : e.eventType = .containerStart
      · obtain ⟨ty, h4, h5⟩ := nest_start h1 he'
        rw [he', h4]
        simp
      · have ho := nest_same h1 he' he
        subst ho
        have hdp : e.depth = some (o'.length : Int) := by
          have h1 := h1
          unfold Spec.nestText at h1
          cases het : e.eventType with
          | scalar =>
            rw [het] at h1
            dsimp only at h1
            split at h1
            · rename_i hh; exact hh.1
            · cases h1
          | versionMarker =>
            rw [het] at h1
            dsimp only at h1
            split at h1
            · rename_i hh
              rw [hh.2]
              have : o' = [] := hh.1
              simp [this]
            · cases h1
          | containerStart => exact absurd het he'
          | containerEnd => exact absurd het he
          | streamEnd => rw [het] at h2; cases h2
          | incomplete => rw [het] at h2; cases h2
        rw [hdp]
        simp only [Option.some.injEq, Int.natCast_eq_zero, List.length_eq_zero_iff, ne_eq, he', not_false_eq_true, and_true]
  · intro hop
    by_cases he : e.eventType = .containerEnd
    · simp [lastOpens, he] at hop
    · have hsk : sk = false := by
        cases sk with
        | false => rfl
        | true => exact absurd (hs rfl).1 he
      subst hsk
      by_cases he' : e.eventType = .containerStart
      · obtain ⟨ty, h4, h5⟩ := nest_start h1 he'
        rw [newDepth, if_pos ⟨rfl, .inl he'⟩, h4]
        simp only [lastDepth, he', h5, Option.getD_some, List.length_cons, Int.natCast_add, Int.natCast_one, true_and]
        exact Int.le_refl _
      · have ho := nest_same h1 he' he
        subst ho
        have h6 : lastOpens opened e = opened := by unfold lastOpens; split <;> simp_all
        have h7 : lastDepth ld e = ld := by unfold lastDepth; split <;> simp_all
        rw [h6] at hop
        rw [h7, newDepth, if_neg (by simp [he, he'])]
        exact hld rfl hop

/-- `blocking_reader(text_reader(), input)`: one request. -/
def ask (F : FloatText) (units : Bytes → List Nat) := Blocking.send (TextReader.send F units) IonEvent.eventType ION_STREAM_END_EVENT
/-- Requests. -/
def asks (F : FloatText) (units : Bytes → List Nat) := Blocking.run (TextReader.send F units) IonEvent.eventType ION_STREAM_END_EVENT

theorem asks_cons {st : Blocking.State Status} {cmd : Cmd} {cmds : List Cmd} :
    asks F units st (cmd :: cmds) = match ask F units st cmd with | (.ok e, st') => .ok e :: asks F units st' cmds | (.error err, _) => [.error err] := by
  simp only [asks, ask, Blocking.run]
  cases Blocking.send (TextReader.send F units) IonEvent.eventType ION_STREAM_END_EVENT st cmd with
  | mk a st' => cases a <;> rfl

theorem ask_track {opened : Bool} {ld : Option Int} {st st' : Blocking.State Status} {cmd : Cmd} {e : IonEvent} (h : Track units opened ld st) (hs : ask F units st cmd = (.ok e, st')) :
    Track units (lastOpens opened e) (lastDepth ld e) st' := by
  have land : ∀ {depth : Int} {sk : Bool} {opens : List IonType} {o : Except PyErr IonEvent × Blocking.State Status}, Lands units depth sk opens o → 0 ≤ depth →
      (sk = false → opened = true → ld = some depth ∧ depth + 1 ≤ (opens.length : Int)) → o = (.ok e, st') → Track units (lastOpens opened e) (lastDepth ld e) st' := by
    intro depth sk opens o hl hd hop ho
    cases hl with
    | error err => cases ho
    | ended => cases ho; exact .ended
    | event e s q cs p l opens' h1 h2 h3 h4 =>
      cases ho
      exact track_event h1 h2 h3 hd fun hsk ho => by rw [h4 hsk]; exact hop hsk ho
  have err : ∀ {x : PyErr} {cs : List Bytes}, loopOf F units (.error x, .dead) cs = (.ok e, st') → False := by
    intro x cs hx
    rw [loop_error] at hx; cases hx
  cases h with
  | ended => cases hs
  | dead => cases hs
  | fresh h1 h2 h3 =>
    cases cmd with
    | next => exact land (loop_lands (sk := false) (Int.le_refl 0) (fit_start h2 h3) (by rintro ⟨⟩) h1) (Int.le_refl 0) (by rintro - ⟨⟩) hs
    | data d => exact (err hs).elim
    | skip => exact (err hs).elim
  | @paused _ _ e0 s q depth cs p l opens h1 h2 h3 h4 h5 =>
    cases cmd with
    | next => exact land (loop_lands (sk := false) h3 h2 (by rintro ⟨⟩) h1) h3 (fun _ h => h5 h) hs
    | data d => exact (err hs).elim
    | skip =>
      simp only [ask, Blocking.send, TextReader.send] at hs
      split at hs
      · exact (err hs).elim
      · rename_i hn
        exact land (loop_lands (sk := true) h3 h2 (fun _ ho => hn (h4.2 ho)) h1) h3 (by rintro ⟨⟩) hs

/-- After a number of answers. -/
theorem asks_split (cmds : List Cmd) : ∀ {opened : Bool} {ld : Option Int} {st : Blocking.State Status} {es : List IonEvent}, Track units opened ld st → asks F units st cmds = es.map .ok →
    ∃ st1, Track units (es.foldl lastOpens opened) (es.foldl lastDepth ld) st1 ∧ ∀ x, asks F units st (cmds ++ x) = es.map .ok ++ asks F units st1 x := by
  induction cmds with
  | nil =>
    intro opened ld st es h1 h2
    cases es with
    | nil => exact ⟨st, h1, fun x => rfl⟩
    | cons e es => cases h2
  | cons cmd cmds ih =>
    intro opened ld st es h1 h2
    rw [asks_cons] at h2
    cases hr : ask F units st cmd with
    | mk a st' =>
      rw [hr] at h2
      cases a with
      | error err =>
        cases es with
        | nil => cases h2
        | cons e es => cases h2
      | ok e =>
        cases es with
        | nil => cases h2
        | cons e' es =>
          simp only [List.map_cons, List.cons.injEq, Except.ok.injEq] at h2
          obtain ⟨rfl, h2⟩ := h2
          obtain ⟨st1, h3, h4⟩ := ih (ask_track h1 hr) h2
          refine ⟨st1, h3, fun x => ?_⟩
          rw [List.cons_append, asks_cons, hr]
          dsimp only
          rw [h4]
          rfl

/-- The end of the container at this depth. -/
def Closes (d : Int) (e : IonEvent) : Prop := e.eventType = .containerEnd ∧ e.depth = some d

/-- An event that is not the end of the container at this depth, nor the end of the stream. -/
def Inside (d : Int) (e : IonEvent) : Prop := ¬ Closes d e ∧ e.eventType ≠ .streamEnd

/-- A reader that skips, from the state of `st` on. -/
def Skipping (F : FloatText) (units : Bytes → List Nat) (d : Int) (o : Except PyErr IonEvent × Blocking.State Status) (st : Blocking.State Status) : Prop :=
  ∃ e s q d' cs p l opens, st = .active (.paused e s q d') cs ∧ Held units q cs p l ∧ Fit opens (.go s) p l ∧ d + 1 ≤ (opens.length : Int) ∧ o = loopOf F units (rep F d true (.go s) q) cs

theorem skipping_follows {d : Int} (hd : 0 ≤ d) {o : Except PyErr IonEvent × Blocking.State Status} {st : Blocking.State Status} (h : Skipping F units d o st) :
    Follows F units d (loopOf F units) o (ask F units st .next) := by
  obtain ⟨e, s, q, d', cs, p, l, opens, rfl, h1, h2, h3, rfl⟩ := h
  exact loop_follows hd h2 h3 h1

/-- Reading on within the container changes nothing for the reader that skips. -/
theorem skipping_reads {d : Int} (hd : 0 ≤ d) {o : Except PyErr IonEvent × Blocking.State Status} : ∀ {es : List IonEvent} {a : Except PyErr IonEvent} {x : List (Except PyErr IonEvent)} {n : Nat} {st : Blocking.State Status},
    Skipping F units d o st → asks F units st (List.replicate n .next) = es.map .ok ++ a :: x → (∀ e ∈ es, Inside d e) →
    ∃ st1 m, n = es.length + (m + 1) ∧ Skipping F units d o st1 ∧ asks F units st1 (List.replicate (m + 1) .next) = a :: x ∧
      ∀ r, asks F units st (List.replicate es.length .next ++ r) = es.map .ok ++ asks F units st1 r := by
  intro es
  induction es with
  | nil =>
    intro a x n st h1 h2 h3
    cases n with
    | zero => cases h2
    | succ n => exact ⟨st, n, by simp, h1, h2, fun r => rfl⟩
  | cons e es ih =>
    intro a x n st h1 h2 h3
    cases n with
    | zero => cases h2
    | succ n =>
      rw [List.replicate_succ, asks_cons] at h2
      have hf := skipping_follows hd h1
      cases hr : ask F units st .next with
      | mk b st' =>
        rw [hr] at h2 hf
        cases b with
        | error err => cases h2
        | ok e' =>
          simp only [List.map_cons, List.cons_append, List.cons.injEq, Except.ok.injEq] at h2
          obtain ⟨rfl, h2⟩ := h2
          have hs : Skipping F units d o st' := by
            cases hf with
            | ended _ => exact absurd rfl (h3 ION_STREAM_END_EVENT (by simp)).2
            | stops _ s q cs p l opens g1 g2 g3 g4 g5 g6 => exact absurd ⟨(g2 rfl).1, g3⟩ (h3 _ (by simp)).1
            | on _ s q d' cs p l opens g1 g2 g3 g4 g5 g6 => exact ⟨_, s, q, d', cs, p, l, opens, rfl, g3, g4, g5, g6⟩
          obtain ⟨st1, m, g1, g2, g3, g4⟩ := ih hs h2 fun x hx => h3 x (by simp [hx])
          refine ⟨st1, m, by simp [g1]; omega, g2, g3, fun r => ?_⟩
          rw [List.length_cons, List.replicate_succ, List.cons_append, asks_cons, hr]
          dsimp only
          rw [g4]
          rfl

/-- Where a reader is when it may be asked to skip. -/
theorem skipping_start {d : Int} {st : Blocking.State Status} (h : Track units true (some d) st) (hl : st ≠ .ended) (hl' : st ≠ .dead) : 0 ≤ d ∧ Skipping F units d (ask F units st .skip) st := by
  cases h with
  | ended => exact absurd rfl hl
  | dead => exact absurd rfl hl'
  | @paused _ _ e s q depth cs p l opens h1 h2 h3 h4 h5 =>
    obtain ⟨h6, h7⟩ := h5 rfl
    cases h6
    refine ⟨h3, e, s, q, _, cs, p, l, opens, rfl, h1, h2, h7, ?_⟩
    have hn : ¬ (e.depth = some 0 ∧ e.eventType ≠ .containerStart) := fun hc => by
      rw [h4.1 hc] at h7
      simp at h7; omega
    simp only [ask, Blocking.send, TextReader.send, if_neg hn]
    rfl

/-- **SKIP goes to where reading leads.** -/
theorem skip_reads {d : Int} {st : Blocking.State Status} (h : Track units true (some d) st) {es : List IonEvent} {a : Except PyErr IonEvent}
    (hr : asks F units st (List.replicate (es.length + 1) .next) = es.map .ok ++ [a]) (hes : ∀ e ∈ es, Inside d e) :
    (∀ err, a = .error err → ∀ rs, asks F units st (.skip :: rs) = [.error err]) ∧
    (∀ e, a = .ok e → e.eventType = .streamEnd → ∀ rs, asks F units st (.skip :: rs) = [.error .modelFuel]) ∧
    (∀ e, a = .ok e → Closes d e → ∀ rs, ∃ later, asks F units st (.skip :: rs) = .ok e :: later ∧ asks F units st (List.replicate (es.length + 1) .next ++ rs) = es.map .ok ++ .ok e :: later) := by
  have hl : st ≠ .ended ∧ st ≠ .dead ∨ ∃ err, a = .error err ∧ ∀ rs, asks F units st (.skip :: rs) = [.error err] := by
    cases h with
    | paused => exact .inl ⟨by simp, by simp⟩
    | ended =>
      cases es with
      | nil =>
        have hr : [Except.error PyErr.stopIteration] = [a] := hr
        cases hr
        exact .inr ⟨_, rfl, fun rs => rfl⟩
      | cons e es => cases hr
    | dead =>
      cases es with
      | nil =>
        have hr : [Except.error PyErr.stopIteration] = [a] := hr
        cases hr
        exact .inr ⟨_, rfl, fun rs => rfl⟩
      | cons e es => cases hr
  rcases hl.symm with ⟨err, rfl, hx⟩ | ⟨hl, hl'⟩
  · refine ⟨?_, ?_, ?_⟩
    · rintro err' ⟨⟩; exact hx
    · rintro e ⟨⟩
    · rintro e ⟨⟩
  obtain ⟨hd, hk⟩ := skipping_start (F := F) h hl hl'
  obtain ⟨st1, m, h1, h2, h3, h4⟩ := skipping_reads hd hk hr hes
  have hm : m = 0 := by omega
  subst hm
  have hf := skipping_follows hd h2
  have h3 : asks F units st1 (.next :: []) = [a] := h3
  rw [asks_cons] at h3
  have h5 : ∀ rs, asks F units st (List.replicate (es.length + 1) .next ++ rs) = es.map .ok ++ asks F units st1 (.next :: rs) := by
    intro rs
    rw [← h4, List.replicate_succ', List.append_assoc]
    rfl
  simp only [h5, asks_cons]
  cases hr1 : ask F units st1 .next with
  | mk b st2 =>
    rw [hr1] at h3 hf
    refine ⟨?_, ?_, ?_⟩
    · rintro err rfl rs
      cases b with
      | ok e => cases h3
      | error err' =>
        cases h3
        cases hf with
        | error _ _ ho => rw [ho]
    · rintro e rfl he rs
      cases b with
      | error err' => cases h3
      | ok e' =>
        simp only [asks, Blocking.run, List.cons.injEq, Except.ok.injEq, and_true] at h3
        subst h3
        cases hf with
        | ended ho => rw [ho]
        | stops _ s q cs p l opens g1 g2 g3 g4 g5 g6 => rw [Real, he] at g1; cases g1
        | on _ s q d' cs p l opens g1 g2 g3 g4 g5 g6 => rw [Real, he] at g1; cases g1
    · rintro e rfl he rs
      cases b with
      | error err' => cases h3
      | ok e' =>
        simp only [asks, Blocking.run, List.cons.injEq, Except.ok.injEq, and_true] at h3
        subst h3
        cases hf with
        | ended ho => cases he.1
        | stops _ s q cs p l opens g1 g2 g3 g4 g5 g6 => rw [g6]; exact ⟨_, rfl, rfl⟩
        | on _ s q d' cs p l opens g1 g2 g3 g4 g5 g6 => exact absurd (fun _ => ⟨he.1, by rw [he.2]; exact Int.le_refl d⟩) g2
end Ion.TextReader.Whole
