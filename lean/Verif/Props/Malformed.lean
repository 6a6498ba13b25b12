import Verif.FramingSpec
import Verif.Props.Truncation
set_option linter.unusedSimpArgs false
/-!
# Malformed binary data (C42)
-/
namespace Ion.RawReader
open Ion Ion.Queue Ion.Fields Ion.Fields.Spec Ion.Scalars Ion.Scalars.Spec Ion.Spec

/-- The post-condition is reached, or an exception is raised, or the reader waits for data that does not come. -/
def Ends (o : Outcome) (cs : List Bytes) (post : Outcome → List Bytes → Prop) : Prop :=
  ∃ o' cs', Leads o cs o' cs' ∧ (post o' cs' ∨ (∃ err, o' = .error err) ∨
    (cs' = [] ∧ ∃ m, (∃ l sk a t, m.ctl = .read l sk a t) ∧ o' = .block false m))

theorem Ends.pure {o : Outcome} {cs : List Bytes} {post : Outcome → List Bytes → Prop} (h : post o cs) : Ends o cs post :=
  ⟨o, cs, .here _ _, .inl h⟩

theorem Ends.error {err : PyErr} {cs : List Bytes} {post : Outcome → List Bytes → Prop} : Ends (.error err) cs post :=
  ⟨_, cs, .here _ _, .inr (.inl ⟨err, rfl⟩)⟩

theorem Ends.bind {o : Outcome} {cs : List Bytes} {p p' : Outcome → List Bytes → Prop}
    (h : Ends o cs p) (h' : ∀ o' cs', p o' cs' → Ends o' cs' p') : Ends o cs p' := by
  obtain ⟨o', cs', hl, h | h⟩ := h
  · obtain ⟨o2, cs2, hl2, h2⟩ := h' o' cs' h
    exact ⟨o2, cs2, hl.trans hl2, h2⟩
  · exact ⟨o', cs', hl, .inr h⟩

theorem Ends.step {m : Machine} {cs : List Bytes} {post : Outcome → List Bytes → Prop}
    (h : Ends (micro m) cs post) : Ends (.cont m) cs post := by
  obtain ⟨o', cs', hl, h⟩ := h
  exact ⟨o', cs', .step hl, h⟩

theorem Gets.ends {miss : Bytes} {o : Outcome} {cs : List Bytes} {post : Outcome → List Bytes → Prop} (h : Gets miss o cs post) :
    Ends o cs post := by
  rcases h with ⟨o', cs', hl, hp⟩ | ⟨-, m, hctl, hl⟩
  · exact ⟨o', cs', hl, .inl hp⟩
  · exact ⟨_, _, hl, .inr (.inr ⟨rfl, m, hctl, rfl⟩)⟩

theorem At.pad {q : Queue} {cs : List Bytes} {pos : Nat} {input : Bytes} (h : At q cs pos input []) (m : Bytes) :
    At q cs pos (input ++ m) m := by
  obtain ⟨f, hr, hp, hi, hc⟩ := h
  exact ⟨f, hr, hp, by rw [← hi]; simp, hc⟩

theorem At.length {q : Queue} {cs : List Bytes} {pos : Nat} {input miss : Bytes} (h : At q cs pos input miss) :
    q.size + miss.length ≤ input.length ∧ 0 ≤ q.size := by
  obtain ⟨f, hr, hp, hi, hc⟩ := h
  have := hr.size
  have := congrArg List.length hi
  simp at this
  omega

theorem limOk_of {depth : Nat} {limit : Option Int} {q : Queue} {pos n : Nat} {r : Option Int} (hp : q.position = pos)
    (h1 : remaining depth limit q = .ok r) (h2 : overruns r n = false) : LimOk depth limit (pos + n) := by
  unfold remaining at h1
  by_cases hd : depth = 0
  · exact .inl hd
  · rw [if_neg hd] at h1
    cases limit with
    | none => simp at h1
    | some l =>
      simp only [Except.ok.injEq] at h1
      subst h1
      simp only [overruns, decide_eq_false_iff_not] at h2
      exact .inr ⟨l, rfl, by push_cast; omega⟩

/-- Reading `n` octets. -/
theorem read_ends {input : Bytes} {stack : List Frame} {task : Task} {pos : Nat} {cs : List Bytes} {q : Queue}
    {depth : Nat} {limit : Option Int} {atEnd : Bool} (n : Nat) (hat : At q cs pos input [])
    (hend : atEnd = true → n ≤ 1 ∧ ¬ Dry q cs) :
    Ends (startRead q stack depth limit n false atEnd task) cs
      (fun o' cs' => ∃ a b q', input = a ++ b ∧ a.length = n ∧ o' = resume q' stack task ∧ At q' cs' pos (a ++ b) [] ∧
        (a.length : Int) ≤ q'.size) := by
  cases hrem : remaining depth limit q with
  | error e => unfold startRead; rw [hrem]; exact .error
  | ok r =>
    cases hov : overruns r n with
    | true => unfold startRead; simp only [hrem, hov, if_true]; exact .error
    | false =>
      have hlim := limOk_of hat.pos hrem hov
      by_cases hn : n ≤ input.length
      · have hl : (input.take n).length = n := by simp; omega
        have := startRead_gets (miss := []) (a := input.take n) (b := input.drop n) (stack := stack) (task := task) (atEnd := atEnd)
          (by simpa using hat) (by rw [hl]; exact hlim) (by rw [hl]; exact hend)
        rw [hl] at this
        refine this.ends.bind ?_
        rintro o' cs' ⟨q', h1, h2, h3⟩
        exact .pure ⟨_, _, q', by simp, hl, h1, h2, by rw [hl]; exact h3⟩
      · have hl : (input ++ List.replicate (n - input.length) (0 : UInt8)).length = n := by simp; omega
        have := startRead_gets (a := input ++ List.replicate (n - input.length) (0 : UInt8)) (b := []) (stack := stack) (task := task) (atEnd := atEnd)
          (by simpa using hat.pad (List.replicate (n - input.length) (0 : UInt8))) (by rw [hl]; exact hlim) (by rw [hl]; exact hend)
        rw [hl] at this
        refine this.ends.bind ?_
        rintro o' cs' ⟨q', h1, h2, h3⟩
        exfalso
        have := h2.length
        simp at this
        omega

/-- Skipping `n` octets. -/
theorem skip_pad_ends {input : Bytes} {stack : List Frame} {pos : Nat} {cs : List Bytes} {q : Queue}
    {depth : Nat} {limit : Option Int} (n : Nat) (hat : At q cs pos input []) :
    Ends (startRead q stack depth limit n true false .loop) cs
      (fun o' cs' => ∃ a b q', input = a ++ b ∧ a.length = n ∧ o' = containerLoop q' stack ∧ At q' cs' (pos + a.length) b []) := by
  cases hrem : remaining depth limit q with
  | error e => unfold startRead; rw [hrem]; exact .error
  | ok r =>
    cases hov : overruns r n with
    | true => unfold startRead; simp only [hrem, hov, if_true]; exact .error
    | false =>
      have hlim := limOk_of hat.pos hrem hov
      by_cases hn : n ≤ input.length
      · have hl : (input.take n).length = n := by simp; omega
        have := skip_gets (miss := []) (a := input.take n) (b := input.drop n) (stack := stack)
          (by simpa using hat) (by rw [hl]; exact hlim)
        rw [hl] at this
        refine this.ends.bind ?_
        rintro o' cs' ⟨q', h1, h2⟩
        exact .pure ⟨input.take n, input.drop n, q', by simp, hl, h1, by rw [hl]; exact h2⟩
      · have hl : (input ++ List.replicate (n - input.length) (0 : UInt8)).length = n := by simp; omega
        have := skip_gets (a := input ++ List.replicate (n - input.length) (0 : UInt8)) (b := []) (stack := stack)
          (by simpa using hat.pad (List.replicate (n - input.length) (0 : UInt8))) (by rw [hl]; exact hlim)
        rw [hl] at this
        refine this.ends.bind ?_
        rintro o' cs' ⟨q', h1, h2⟩
        exfalso
        have := h2.length
        simp at this
        omega

/-- A VarUInt. -/
theorem varUInt_ends {stack : List Frame} {ctx : Ctx} {use : VarUse} : ∀ (input : Bytes) {pos : Nat} {cs : List Bytes} {q : Queue}
    {v : Nat}, At q cs pos input [] →
    Ends (.cont ⟨q, stack, .varUInt ctx v use⟩) cs
      (fun o' cs' => ∃ bs b q', input = bs ++ b ∧ Delimited bs ∧ o' = useVar q' stack ctx (base128 v bs) use ∧
        At q' cs' (pos + bs.length) b []) := by
  have byte : ∀ {input : Bytes} {pos : Nat} {cs : List Bytes} {q : Queue} {v : Nat}, At q cs pos input [] →
      Ends (.cont ⟨q, stack, .varUInt ctx v use⟩) cs (fun o' cs' => ∃ q', o' = resume q' stack (.varByte ctx v use) ∧
        At q' cs' pos input [] ∧ 1 ≤ q'.size) := by
    intro input pos cs q v hat
    have hsz := hat.length.2
    refine .step ?_
    simp only [micro]
    split
    · refine (read_ends 1 hat (by simp)).bind ?_
      rintro o' cs' ⟨a, b, q', rfl, h1, h2, h3, h4⟩
      exact .pure ⟨q', h2, h3, by omega⟩
    · exact .step (.pure ⟨q, rfl, hat, by omega⟩)
  intro input
  induction input with
  | nil =>
    intro pos cs q v hat
    refine (byte hat).bind ?_
    rintro o' cs' ⟨q', rfl, hat', hs⟩
    have := hat'.length
    simp at this
    omega
  | cons x xs ih =>
    intro pos cs q v hat
    refine (byte hat).bind ?_
    rintro o' cs' ⟨q', rfl, hat', hs⟩
    obtain ⟨q2, h1, h2⟩ := hat'.readByte hs
    simp only [resume, h1]
    by_cases hx : x.toNat < 128
    · rw [if_neg (by rw [and_80]; omega), step_7]
      refine (ih h2).bind ?_
      rintro o2 cs2 ⟨bs, b, q3, rfl, h4, h5, h6⟩
      refine .pure ⟨x :: bs, b, q3, rfl, .more x bs hx h4, h5, ?_⟩
      simpa [Nat.add_assoc, Nat.add_comm 1] using h6
    · rw [if_pos ((and_80 _).2 (by have := uint8_lt x; omega)), step_7]
      exact .pure ⟨[x], xs, q2, rfl, .last x (by omega), rfl, h2⟩

/-- A type octet. -/
theorem type_ends {input : Bytes} {stack : List Frame} {ctx : Ctx} {pos : Nat} {cs : List Bytes} {q : Queue}
    {ivm atTop : Bool} (hat : At q cs pos input []) (htop : atTop = true → ¬ Dry q cs) :
    Ends (startType q stack ctx ivm atTop) cs
      (fun o' cs' => ∃ h b q', input = h :: b ∧ (ivm = true → h = 0xE0) ∧ o' = handle q' stack ctx (dispatch h) ∧
        At q' cs' (pos + 1) b []) := by
  refine (read_ends 1 hat (fun h => ⟨by simp, htop h⟩)).bind ?_
  rintro o' cs' ⟨a, b, q', rfl, h1, rfl, hat', hs⟩
  obtain ⟨h, rfl⟩ : ∃ h, a = [h] := by
    match a, h1 with
    | [h], _ => exact ⟨h, rfl⟩
  obtain ⟨q2, h3, h4⟩ := hat'.readByte (by simpa using hs)
  simp only [resume, h3]
  by_cases hi : (ivm && decide (h.toNat ≠ 0xE0)) = true
  · rw [if_pos hi]; exact .error
  · rw [if_neg hi]
    refine .pure ⟨h, b, q2, rfl, ?_, rfl, h4⟩
    rintro rfl
    apply UInt8.toNat_inj.1
    simpa using hi

/-! ## One value -/

theorem parseVarLoop_inv {d rest : Bytes} {v n : Nat} (h : parseVarLoop v d = .ok (n, rest)) :
    ∃ bs, d = bs ++ rest ∧ Delimited bs ∧ base128 v bs = n := by
  induction d generalizing v with
  | nil => simp [parseVarLoop] at h
  | cons x d ih =>
    simp only [parseVarLoop] at h
    by_cases hx : x.toNat < 128
    · rw [if_neg (by rw [and_80]; omega), step_7] at h
      obtain ⟨bs, rfl, h2, h3⟩ := ih h
      exact ⟨x :: bs, rfl, .more x bs hx h2, h3⟩
    · rw [if_pos ((and_80 _).2 (by have := uint8_lt x; omega)), step_7] at h
      simp only [Except.ok.injEq, Prod.mk.injEq] at h
      obtain ⟨h1, rfl⟩ := h
      exact ⟨[x], rfl, .last x (by omega), h1⟩

theorem parseSids_inv {n : Nat} : ∀ {d : Bytes} {ns : List Nat}, parseSids n d = .ok ns → IsSids d ns := by
  induction n with
  | zero =>
    intro d ns h
    cases d with
    | nil => simp only [parseSids, Except.ok.injEq] at h; subst h; exact .nil
    | cons x d => simp [parseSids] at h
  | succ n ih =>
    intro d ns h
    cases d with
    | nil => simp only [parseSids, Except.ok.injEq] at h; subst h; exact .nil
    | cons x d =>
      simp only [parseSids, bind, Except.bind, pure, Except.pure] at h
      cases hv : parseVarLoop 0 (x :: d) with
      | error e => rw [hv] at h; simp at h
      | ok y =>
        obtain ⟨v, rest⟩ := y
        rw [hv] at h
        simp only at h
        cases hs : parseSids n rest with
        | error e => rw [hs] at h; simp at h
        | ok vs =>
          rw [hs] at h
          simp only [Except.ok.injEq] at h
          subst h
          obtain ⟨bs, h1, h2, h3⟩ := parseVarLoop_inv hv
          rw [h1]
          exact .cons bs rest v vs ⟨h2, h3⟩ (ih hs)

/-- What reading a value can lead to. -/
inductive ValuePost (stack : List Frame) (ctx : Ctx) (pos : Nat) (input : Bytes) : Outcome → List Bytes → Prop
  | scalar (e : IonEvent) (v b : Bytes) (q : Queue) (cs : List Bytes) : input = v ++ b → IsPlain v → e.eventType = .scalar →
      EndOk ctx (pos + v.length) → At q cs (pos + v.length) b [] → ValuePost stack ctx pos input (.emit e q stack) cs
  | cont (e : IonEvent) (head b : Bytes) (n : Nat) (ty : CType) (q : Queue) (cs : List Bytes) : input = head ++ b →
      (∀ body : Bytes, body.length = n → FramedContainer ty true (head ++ body) body) → head ≠ [] → e.eventType = .containerStart →
      EndOk ctx (pos + head.length + n) → At q cs (pos + head.length) b [] →
      ValuePost stack ctx pos input
        (.emit e q (⟨some ty.ty, some ((pos + head.length + n : Nat) : Int), ctx.depth + 1, true⟩ :: stack)) cs
  | pad (p body b : Bytes) (q : Queue) (cs : List Bytes) : input = p ++ b → Framed 0 p body → namedPad ctx.fieldName = false →
      At q cs (pos + p.length) b [] → ValuePost stack ctx pos input (containerLoop q stack) cs
  | marker (b : Bytes) (q : Queue) (cs : List Bytes) : input = [0xE0, 0x01, 0x00, 0xEA] ++ b → ctx.depth = 0 →
      At q cs (pos + 4) b [] → ValuePost stack ctx pos input (.emit ION_VERSION_MARKER_EVENT q stack) cs
  | wrapper (n : Nat) (head len sids b : Bytes) (ann : List Nat) (q : Queue) (cs : List Bytes) :
      input = head ++ (len ++ (sids ++ b)) → ctx.annotations = none → IsWrapperHeader n head → IsVarUInt len sids.length →
      IsSids sids ann → ann ≠ [] → At q cs (pos + (head ++ (len ++ sids)).length) b [] →
      ValuePost stack ctx pos input (startType q stack
        { ctx with limit := some ((pos + head.length + n : Nat) : Int), annotations := some (ann.map sidTok) } false false) cs

theorem scalarEvent_inv {ctx : Ctx} {q : Queue} {ty : IonType} {v : Except PyErr (Option PyVal)} {e : IonEvent} {pos : Nat}
    (hp : q.position = pos) (h : scalarEvent ctx q ty v = .ok e) : EndOk ctx pos ∧ e.eventType = .scalar := by
  unfold scalarEvent at h
  simp only at h
  by_cases he : (ctx.annotations.getD []).isEmpty = true
  · rw [if_pos he] at h
    refine ⟨fun h0 => ?_, by rw [← Except.ok.inj h]⟩
    exact absurd (by simpa using he) h0
  · rw [if_neg he] at h
    cases hl : ctx.limit with
    | none => rw [hl] at h; simp at h
    | some l =>
      rw [hl] at h
      simp only at h
      by_cases h0 : l - q.position ≠ 0
      · rw [if_pos h0] at h; simp at h
      · rw [if_neg h0] at h
        refine ⟨fun _ => ?_, by rw [← Except.ok.inj h]⟩
        rw [hl]
        congr 1
        omega

/-- The end of a scalar. -/
theorem finish_ends {stack : List Frame} {ctx : Ctx} {pos : Nat} {input v b : Bytes} {k : ScalarKind} {data : Bytes} {q : Queue}
    {cs : List Bytes} (hin : input = v ++ b) (hv : IsPlain v) (hat : At q cs (pos + v.length) b []) :
    Ends (finishScalar q stack ctx k data) cs (ValuePost stack ctx pos input) := by
  unfold finishScalar
  split
  · exact .error
  · cases he : scalarEvent ctx q k.ionType (scalarValue k data) with
    | error err => exact .error
    | ok e =>
      obtain ⟨h1, h2⟩ := scalarEvent_inv hat.pos he
      exact .pure (.scalar e v b q cs hin hv h2 h1 hat)

/-- What a header announces, by the handler of its type code. -/
inductive Announces (lh : LenHandler) (n : Nat) (head : Bytes) : Prop
  | nop : lh = .nop → (∀ body : Bytes, body.length = n → Framed 0 (head ++ body) body) → Announces lh n head
  | scalar (k : ScalarKind) : lh = .scalar k → (∀ body : Bytes, body.length = n → IsPlain (head ++ body)) → Announces lh n head
  | cont (ty : CType) : lh = .container ty.ty → (∀ body : Bytes, body.length = n → FramedContainer ty true (head ++ body) body) →
      Announces lh n head
  | annotation : lh = .annotation → IsWrapperHeader n head → Announces lh n head

theorem lengthed_ends {stack : List Frame} {ctx : Ctx} {pos : Nat} {head b : Bytes} {lh : LenHandler} {n : Nat} {q : Queue}
    {cs : List Bytes} (ha : Announces lh n head) (hne : head ≠ []) (hat : At q cs (pos + head.length) b []) :
    Ends (lengthed q stack ctx lh n) cs (ValuePost stack ctx pos (head ++ b)) := by
  cases ha with
  | nop hlh h =>
    subst hlh
    simp only [lengthed]
    cases hn : namedPad ctx.fieldName with
    | true => rw [if_pos rfl]; exact .error
    | false =>
      rw [if_neg (by simp)]
      by_cases h0 : n > 0
      · rw [if_pos h0]
        refine (skip_pad_ends n hat).bind ?_
        rintro o' cs' ⟨a, b', q', rfl, h1, rfl, hat'⟩
        exact .pure (.pad (head ++ a) a b' q' cs' (by simp) (h a h1) hn (by simpa [Nat.add_assoc] using hat'))
      · rw [if_neg h0]
        refine .step (.pure (.pad head [] b q cs rfl ?_ hn hat))
        have := h [] (by simp; omega)
        simpa using this
  | scalar k hlh h =>
    subst hlh
    simp only [lengthed]
    by_cases h0 : n = 0
    · rw [if_pos h0]
      have := h [] (by simp [h0])
      exact finish_ends rfl (by simpa using this) hat
    · rw [if_neg h0]
      refine (read_ends n hat (by simp)).bind ?_
      rintro o' cs' ⟨a, b', q', rfl, h1, rfl, hat', hs⟩
      obtain ⟨q2, h3, h4⟩ := hat'.read hs
      rw [h1] at h3
      simp only [resume, h3]
      exact finish_ends (v := head ++ a) (b := b') (by simp) (h a h1) (by simpa [Nat.add_assoc] using h4)
  | cont ty hlh h =>
    subst hlh
    simp only [lengthed, containerStart]
    split
    · exact .error
    · rename_i hc
      have hl : q.position + (n : Int) = ((pos + head.length + n : Nat) : Int) := by rw [hat.pos]; push_cast; rfl
      rw [hl] at hc ⊢
      refine .pure (.cont _ head b n ty q cs rfl h hne rfl ?_ hat)
      intro h0
      apply Classical.byContradiction
      intro h1
      exact hc ⟨by cases hh : ctx.annotations.getD [] with | nil => exact absurd hh h0 | cons => rfl, h1⟩
  | annotation hlh h =>
    subst hlh
    simp only [lengthed]
    cases hann : ctx.annotations with
    | some a => exact .error
    | none =>
      rw [if_neg (by simp)]
      have hl : q.position + (n : Int) = ((pos + head.length + n : Nat) : Int) := by rw [hat.pos]; push_cast; rfl
      rw [hl]
      refine (varUInt_ends b hat).bind ?_
      rintro o' cs' ⟨len, b1, q1, rfl, h1, rfl, hat1⟩
      simp only [useVar]
      by_cases hv : base128 0 len < 1
      · rw [if_pos hv]; exact .error
      · rw [if_neg hv]
        refine (read_ends _ hat1 (by simp)).bind ?_
        rintro o2 cs2 ⟨sids, b2, q2, rfl, h2, rfl, hat2, hs2⟩
        obtain ⟨q3, h3, h4⟩ := hat2.read hs2
        rw [h2] at h3
        simp only [resume, h3]
        cases hps : parseSids sids.length sids with
        | error e => exact .error
        | ok ann =>
          have hsids := parseSids_inv hps
          simp only
          by_cases hr : ((pos + head.length + n : Nat) : Int) - q3.position < 1
          · rw [if_pos hr]; exact .error
          · rw [if_neg hr]
            have hne : ann ≠ [] := by
              rintro rfl
              have : sids = [] := by cases hsids; rfl
              rw [this] at h2
              simp at h2; omega
            refine .pure ?_
            have := ValuePost.wrapper (stack := stack) (ctx := ctx) (pos := pos) n head len sids b2 ann q3 cs2
              rfl hann h ⟨h1, h2.symm⟩ hsids hne (by simpa [Nat.add_assoc] using h4)
            exact this

/-- The type code of a scalar. -/
def ScalarKind.code : ScalarKind → Nat
  | .posInt => 2 | .negInt => 3 | .float => 4 | .decimal => 5 | .timestamp => 6 | .symbol => 7 | .string => 8 | .clob => 9 | .blob => 10

/-- What the dispatch table holds, entry by entry. -/
def entryOk (n : Nat) : Handler → Bool
  | .invalid => true
  | .ivm => n = 0xE0
  | .ordered => n = 0xD1
  | .static _ _ => (n % 16 = 15 && n ≤ 0xDF) || n = 0x10 || n = 0x11 || n = 0x20 || n = 0x40 || n = 0x50 || n = 0x70 || n = 0x80 ||
      n = 0x90 || n = 0xA0
  | .fixed .nop l => n = l && l < 14
  | .fixed (.scalar k) l => n = k.code * 16 + l && 1 ≤ l && l < 14 && (k ≠ .float || l = 4 || l = 8)
  | .fixed (.container ty) l => l < 14 && ((ty = .list && n = 11 * 16 + l) || (ty = .sexp && n = 12 * 16 + l) || (ty = .struct && n = 13 * 16 + l))
  | .fixed .annotation l => n = 0xE0 + l && 3 ≤ l && l < 14
  | .variable .nop => n = 14
  | .variable (.scalar k) => n = k.code * 16 + 14 && k ≠ .float
  | .variable (.container ty) => (ty = .list && n = 11 * 16 + 14) || (ty = .sexp && n = 12 * 16 + 14) || (ty = .struct && n = 13 * 16 + 14)
  | .variable .annotation => n = 0xEE

theorem dispatch_table : ∀ n < 256, entryOk n (dispatch (UInt8.ofNat n)) = true := by decide +kernel

theorem dispatch_ok (h : UInt8) : entryOk h.toNat (dispatch h) = true := by
  have := dispatch_table h.toNat (uint8_lt h)
  rwa [← dispatch_of (o := h) rfl] at this

theorem code_cases {k : ScalarKind} (h : k ≠ .float) : k.code = 2 ∨ k.code = 3 ∨ k.code = 5 ∨ k.code = 6 ∨ k.code = 7 ∨ k.code = 8 ∨
    k.code = 9 ∨ k.code = 10 := by cases k <;> simp [ScalarKind.code] at h ⊢

theorem fixed_announces {h : UInt8} {lh : LenHandler} {n : Nat} (hd : dispatch h = .fixed lh n) : Announces lh n [h] := by
  have hok := dispatch_ok h
  rw [hd] at hok
  cases lh with
  | nop =>
    simp only [entryOk, Bool.and_eq_true, decide_eq_true_eq] at hok
    refine .nop rfl fun body hb => .short h body (by omega) (by omega)
  | scalar k =>
    simp only [entryOk, Bool.and_eq_true, decide_eq_true_eq, Bool.or_eq_true] at hok
    refine .scalar k rfl fun body hb => ?_
    by_cases hk : k = .float
    · subst hk
      obtain ⟨⟨⟨h1, -⟩, -⟩, (h2 | h2) | h2⟩ := hok
      · exact absurd rfl h2
      · subst h2
        rw [show h = 0x44 from by rw [dispatch_of h1]; rfl]
        exact .float4 body hb
      · subst h2
        rw [show h = 0x48 from by rw [dispatch_of h1]; rfl]
        exact .float8 body hb
    · refine .body k.code _ body (code_cases hk) (.short h body (by omega) (by omega)) ?_ ?_
      · intro hc
        have := congrArg List.length hc
        simp at this
        simp [this] at hb; omega
      · intro hc
        have := congrArg List.length hc
        simp at this
        simp [this] at hb; omega
  | container ty =>
    simp only [entryOk, Bool.and_eq_true, decide_eq_true_eq, Bool.or_eq_true] at hok
    obtain ⟨h0, (⟨rfl, h1⟩ | ⟨rfl, h1⟩) | ⟨rfl, h1⟩⟩ := hok
    · exact .cont .list rfl fun body hb => .list _ _ _ (.short h body (by omega) (by omega))
    · exact .cont .sexp rfl fun body hb => .sexp _ _ _ (.short h body (by omega) (by omega))
    · exact .cont .struct rfl fun body hb => .struct _ _ _ (.short h body (by omega) (by omega))
  | annotation =>
    simp only [entryOk, Bool.and_eq_true, decide_eq_true_eq] at hok
    exact .annotation rfl (.short h (by omega) (by omega) (by omega))

theorem variable_announces {h : UInt8} {lh : LenHandler} {n : Nat} {len : Bytes} (hd : dispatch h = .variable lh) (hl : IsVarUInt len n) :
    Announces lh n (h :: len) := by
  have hok := dispatch_ok h
  rw [hd] at hok
  cases lh with
  | nop =>
    simp only [entryOk, decide_eq_true_eq] at hok
    exact .nop rfl fun body hb => .long h len body (by omega) (by rw [hb]; exact hl)
  | scalar k =>
    simp only [entryOk, Bool.and_eq_true, decide_eq_true_eq] at hok
    have hne := List.length_pos_iff.2 (Delimited.ne_nil hl.1)
    refine .scalar k rfl fun body hb => .body k.code _ body (code_cases hok.2) (.long h len body (by omega) (by rw [hb]; exact hl)) ?_ ?_
    · intro hc
      have := congrArg List.length hc
      simp at this
      simp [this] at hne
    · intro hc
      have := congrArg List.length hc
      simp at this
      simp [this] at hne
  | container ty =>
    simp only [entryOk, Bool.and_eq_true, decide_eq_true_eq, Bool.or_eq_true] at hok
    obtain (⟨rfl, h1⟩ | ⟨rfl, h1⟩) | ⟨rfl, h1⟩ := hok
    · exact .cont .list rfl fun body hb => .list _ _ _ (.long h len body (by omega) (by rw [hb]; exact hl))
    · exact .cont .sexp rfl fun body hb => .sexp _ _ _ (.long h len body (by omega) (by rw [hb]; exact hl))
    · exact .cont .struct rfl fun body hb => .struct _ _ _ (.long h len body (by omega) (by rw [hb]; exact hl))
  | annotation =>
    simp only [entryOk, decide_eq_true_eq] at hok
    exact .annotation rfl (.long h len hok hl)

theorem static_plain {h : UInt8} {ty : IonType} {v : Option PyVal} (hd : dispatch h = .static ty v) : IsPlain [h] := by
  have hok := dispatch_ok h
  rw [hd] at hok
  simp only [entryOk, Bool.and_eq_true, decide_eq_true_eq, Bool.or_eq_true] at hok
  have empty : ∀ tid, tid = 2 ∨ tid = 3 ∨ tid = 5 ∨ tid = 6 ∨ tid = 7 ∨ tid = 8 ∨ tid = 9 ∨ tid = 10 → h.toNat = tid * 16 →
      tid ≠ 3 → tid ≠ 6 → IsPlain [h] := by
    intro tid ht hh h3 h6
    refine .body tid [h] [] ht (.short h [] (by simp) (by simpa using hh)) ?_ ?_
    · intro hc
      simp only [List.cons.injEq, and_true] at hc
      rw [hc] at hh
      have : (0x30 : UInt8).toNat = 48 := rfl
      omega
    · intro hc
      simp only [List.cons.injEq, and_true] at hc
      rw [hc] at hh
      have : (0x60 : UInt8).toNat = 96 := rfl
      omega
  rcases hok with ((((((((⟨h1, h2⟩ | h1) | h1) | h1) | h1) | h1) | h1) | h1) | h1) | h1
  · exact .null h h1 h2
  · rw [dispatch_of h1]; exact .bool false
  · rw [dispatch_of h1]; exact .bool true
  · exact empty 2 (by simp) (by omega) (by simp) (by simp)
  · rw [dispatch_of h1]; exact .float0
  · exact empty 5 (by simp) (by omega) (by simp) (by simp)
  · exact empty 7 (by simp) (by omega) (by simp) (by simp)
  · exact empty 8 (by simp) (by omega) (by simp) (by simp)
  · exact empty 9 (by simp) (by omega) (by simp) (by simp)
  · exact empty 10 (by simp) (by omega) (by simp) (by simp)

/-- Reading a value, a pad, a version marker or the start of an annotation wrapper. -/
theorem value_ends {input : Bytes} {stack : List Frame} {ctx : Ctx} {pos : Nat} {cs : List Bytes} {q : Queue}
    {ivm atTop : Bool} (hat : At q cs pos input []) (htop : atTop = true → ¬ Dry q cs) :
    Ends (startType q stack ctx ivm atTop) cs
      (fun o' cs' => ValuePost stack ctx pos input o' cs' ∧ (ivm = true → ∃ b q', input = [0xE0, 0x01, 0x00, 0xEA] ++ b ∧
        o' = .emit ION_VERSION_MARKER_EVENT q' stack ∧ At q' cs' (pos + 4) b [])) := by
  refine (type_ends hat htop).bind ?_
  rintro o' cs' ⟨h, b, q', rfl, hivm, rfl, hat'⟩
  have strengthen : ∀ {o cs}, h ≠ 0xE0 → Ends o cs (ValuePost stack ctx pos (h :: b)) →
      Ends o cs (fun o' cs' => ValuePost stack ctx pos (h :: b) o' cs' ∧
        (ivm = true → ∃ b' q', h :: b = [0xE0, 0x01, 0x00, 0xEA] ++ b' ∧
          o' = .emit ION_VERSION_MARKER_EVENT q' stack ∧ At q' cs' (pos + 4) b' [])) := by
    intro o cs hne he
    exact he.bind fun o' cs' hp => .pure ⟨hp, fun hi => absurd (hivm hi) hne⟩
  have hok := dispatch_ok h
  have hE0 : dispatch 0xE0 = .ivm := by decide +kernel
  cases hd : dispatch h with
  | invalid => exact .error
  | ivm =>
    rw [hd] at hok
    simp only [entryOk, decide_eq_true_eq] at hok
    have hh : h = 0xE0 := dispatch_of hok
    subst hh
    simp only [handle]
    by_cases h0 : ctx.depth ≠ 0
    · rw [if_pos h0]; exact .error
    · rw [if_neg h0]
      refine (read_ends 3 hat' (by simp)).bind ?_
      rintro o2 cs2 ⟨a, b2, q2, rfl, h1, rfl, hat2, hs2⟩
      obtain ⟨q3, h3, h4⟩ := hat2.read hs2
      rw [h1] at h3
      simp only [resume]
      have h3' : q2.read 3 = .ok (a, q3) := h3
      rw [h3']
      simp only
      by_cases ha : a ≠ [0x01, 0x00, 0xEA]
      · rw [if_pos ha]; exact .error
      · rw [if_neg ha]
        have ha' : a = [0x01, 0x00, 0xEA] := by simpa using ha
        subst ha'
        exact .pure ⟨.marker b2 q3 cs2 rfl (by omega) h4, fun _ => ⟨b2, q3, rfl, rfl, h4⟩⟩
  | static ty v =>
    refine strengthen (by rintro rfl; rw [hE0] at hd; cases hd) ?_
    simp only [handle]
    cases he : scalarEvent ctx q' ty (.ok v) with
    | error e => exact .error
    | ok e =>
      obtain ⟨h1, h2⟩ := scalarEvent_inv hat'.pos he
      exact .pure (.scalar e [h] b q' cs' rfl (static_plain hd) h2 h1 hat')
  | fixed lh n =>
    refine strengthen (by rintro rfl; rw [hE0] at hd; cases hd) ?_
    exact lengthed_ends (head := [h]) (fixed_announces hd) (by simp) hat'
  | «variable» lh =>
    refine strengthen (by rintro rfl; rw [hE0] at hd; cases hd) ?_
    simp only [handle]
    refine (varUInt_ends b hat').bind ?_
    rintro o2 cs2 ⟨len, b2, q2, rfl, h1, rfl, hat2⟩
    simp only [useVar]
    have := lengthed_ends (stack := stack) (ctx := ctx) (head := h :: len) (pos := pos) (b := b2) (variable_announces hd ⟨h1, rfl⟩) (by simp)
      (by simpa [Nat.add_assoc, Nat.add_comm 1] using hat2)
    simpa using this
  | ordered =>
    refine strengthen (by rintro rfl; rw [hE0] at hd; cases hd) ?_
    rw [hd] at hok
    simp only [entryOk, decide_eq_true_eq] at hok
    have hh : h = 0xD1 := dispatch_of hok
    subst hh
    simp only [handle]
    refine (varUInt_ends b hat').bind ?_
    rintro o2 cs2 ⟨len, b2, q2, rfl, h1, rfl, hat2⟩
    simp only [useVar]
    by_cases hv : base128 0 len < 2
    · rw [if_pos hv]; exact .error
    · rw [if_neg hv]
      have := lengthed_ends (stack := stack) (ctx := ctx) (lh := .container .struct) (head := 0xD1 :: len) (pos := pos) (b := b2)
        (n := base128 0 len)
        (.cont .struct rfl fun body hb => by
          have hne : body ≠ [] := by rintro rfl; simp at hb; omega
          exact .ordered len body hne ⟨h1, hb.symm⟩) (by simp)
        (by simpa [Nat.add_assoc, Nat.add_comm 1] using hat2)
      simpa [lengthed] using this

/-! ## The place of the reader -/

/-- The octets `c` have been read, and the containers of `stack` are open: whatever fills the innermost one exactly makes
the octets read so far well framed up to its parent. -/
inductive Open : Bytes → List Frame → Prop
  | fresh : Open [] [rootFrame true]
  | root (t : Bytes) : WellFramedTop t → Open ([0xE0, 0x01, 0x00, 0xEA] ++ t) [rootFrame false]
  | level (c body : Bytes) (ty : CType) (n d : Nat) (first : Bool) (fs : List Frame) : WellFramed (ty = .struct) body →
      (∀ b, WellFramed (ty = .struct) b → b.length = n → Open (c ++ b) fs) →
      Open (c ++ body) (⟨some ty.ty, some ((c.length + n : Nat) : Int), d + 1, first⟩ :: fs)

/-- A further item in the innermost container. -/
theorem Open.item {c x : Bytes} {s : Bool} {f : Frame} {fs : List Frame} (h : Open c (f :: fs)) (hf : f.depth = 0 → f.first = false)
    (hs : f.ionType = some .struct ↔ s = true) (hx : WellFramed s x) : Open (c ++ x) ({ f with first := false } :: fs) := by
  cases h with
  | fresh => simp at hf
  | root t ht =>
    have : s = false := by cases s with | false => rfl | true => simp at hs
    subst this
    have := ht.append (.items x [] hx .nil)
    rw [List.append_assoc]
    exact .root _ (by simpa using this)
  | level c0 body ty n d first fs hb hc =>
    have : s = decide (ty = .struct) := by cases ty <;> cases s <;> simp [CType.ty] at hs ⊢
    subst this
    rw [List.append_assoc]
    exact .level c0 _ ty n d false fs (hb.append hx) hc

/-- What `NEXT` leads to; the number bounds the number of events to come. -/
inductive NextPost (doc : Bytes) (k : Nat) : Outcome → List Bytes → Prop
  | event (e : IonEvent) (q : Queue) (cs : List Bytes) (c input : Bytes) (stack : List Frame) : e.eventType.isStreamSignal = false →
      doc = c ++ input → Open c stack → At q cs c.length input [] → 2 * input.length + stack.length < k →
      NextPost doc k (.emit e q stack) cs
  | fin (m : Machine) : (∃ l sk a t, m.ctl = .read l sk a t) → WellFramedDoc doc → NextPost doc k (.block true m) []

theorem NextPost.mono {doc : Bytes} {k k' : Nat} {o : Outcome} {cs : List Bytes} (hk : k ≤ k') (h : NextPost doc k o cs) : NextPost doc k' o cs := by
  cases h with
  | event e q cs c input stack h1 h2 h3 h4 h5 => exact .event e q cs c input stack h1 h2 h3 h4 (by omega)
  | fin m h1 h2 => exact .fin m h1 h2

theorem padField {s : Bool} {fb : Bytes} {fld : Option Nat} (h : IsField s fb fld) (hn : namedPad (fld.map sidTok) = false) : IsPadField s fb := by
  cases h with
  | none => rfl
  | some fb n hn' =>
    simp only [namedPad, Option.map_some, ne_eq, decide_not, Bool.not_eq_false', decide_eq_true_eq] at hn
    have : n = 0 := by simpa [sidTok, SYMBOL_ZERO_TOKEN] using hn
    subst this
    simpa [IsPadField] using hn'

theorem wrapperHeader_framed {n : Nat} {head body : Bytes} (h : IsWrapperHeader n head) (hb : body.length = n) : Framed 14 (head ++ body) body := by
  cases h with
  | short h h1 h2 h3 => exact .short h body (by omega) (by omega)
  | long h len h1 h2 => exact .long h len body (by omega) (by rw [hb]; exact h2)

theorem plain_ne_nil {v : Bytes} (h : IsPlain v) : v ≠ [] := by
  cases h with
  | body tid bs body _ hf => exact framed_ne_nil hf
  | _ => simp

/-- The statement about the container loop, for short inputs. -/
def LoopEnds (doc : Bytes) (m : Nat) : Prop :=
  ∀ {c input : Bytes} {stack : List Frame} {q : Queue} {cs : List Bytes}, input.length < m → Open c stack → At q cs c.length input [] →
    doc = c ++ input → Ends (containerLoop q stack) cs (NextPost doc (2 * input.length + stack.length))

/-- The octets `fb ++ w` (field name, start of a wrapper) have been read after `c`. -/
structure ItemCtx (c fb w : Bytes) (s : Bool) (ann : List Nat) (f : Frame) (fs : List Frame) (fld : Option Nat) (ctx : Ctx) (pos : Nat) : Prop where
  opened : Open c (f :: fs)
  notFirst : f.depth = 0 → f.first = false
  struct : f.ionType = some .struct ↔ s = true
  field : IsField s fb fld
  name : ctx.fieldName = fld.map sidTok
  depth : ctx.depth = f.depth
  place : pos = (c ++ (fb ++ w)).length
  wrap : ∀ inner : Bytes, EndOk ctx (pos + inner.length) → Wrapped ann inner (w ++ inner)
  pad : ∀ p body : Bytes, IsPadField s fb → Framed 0 p body → WellFramed s (fb ++ (w ++ p))
  marker : WellFramedTop (w ++ [0xE0, 0x01, 0x00, 0xEA])

theorem item_ends {doc c fb w input : Bytes} {s : Bool} {ann : List Nat} {f : Frame} {fs : List Frame} {fld : Option Nat} {ctx : Ctx}
    {pos k : Nat} {o : Outcome} {cs : List Bytes} (ih : LoopEnds doc (fb ++ (w ++ input)).length) (hc : ItemCtx c fb w s ann f fs fld ctx pos)
    (hdoc : doc = c ++ (fb ++ (w ++ input))) (hk : k = 2 * (fb ++ (w ++ input)).length + fs.length + 1)
    (hwrapper : ∀ (n : Nat) (head len sids b : Bytes) (ann : List Nat) (q : Queue) (cs : List Bytes),
      input = head ++ (len ++ (sids ++ b)) → ctx.annotations = none → IsWrapperHeader n head → IsVarUInt len sids.length →
      IsSids sids ann → ann ≠ [] → At q cs (pos + (head ++ (len ++ sids)).length) b [] →
      Ends (startType q ({ f with first := false } :: fs)
        { ctx with limit := some ((pos + head.length + n : Nat) : Int), annotations := some (ann.map sidTok) } false false) cs (NextPost doc k))
    (h : ValuePost ({ f with first := false } :: fs) ctx pos input o cs) : Ends o cs (NextPost doc k) := by
  cases h with
  | scalar e v b q cs hin hv he hend hat =>
    have hitem : WellFramed s (fb ++ ((w ++ v) ++ [])) := .scalar s fb v (w ++ v) [] fld ann hc.field hv (hc.wrap v hend) (.nil s)
    have hne := List.length_pos_iff.2 (plain_ne_nil hv)
    subst hin
    refine .pure (.event e q cs (c ++ (fb ++ ((w ++ v) ++ []))) b _ (by rw [he]; rfl) (by rw [hdoc]; simp) (hc.opened.item hc.notFirst hc.struct hitem) ?_ ?_)
    · have := hc.place
      subst this
      simpa [Nat.add_assoc] using hat
    · rw [hk]; simp; omega
  | cont e head b n ty q cs hin hfr hne he hend hat =>
    have hpos := List.length_pos_iff.2 hne
    subst hin
    have hp := hc.place
    have heq : pos + head.length = (c ++ (fb ++ (w ++ head))).length := by rw [hp]; simp; omega
    rw [heq] at hend hat ⊢
    refine .pure (.event e q cs (c ++ (fb ++ (w ++ head))) b _ (by rw [he]; rfl) (by rw [hdoc]; simp) ?_ hat (by rw [hk]; simp; omega))
    have := Open.level (c ++ (fb ++ (w ++ head))) [] ty n ctx.depth true ({ f with first := false } :: fs) (.nil _) ?_
    · simpa using this
    · intro b' hb' hn
      have hitem : WellFramed s (fb ++ ((w ++ (head ++ b')) ++ [])) := by
        refine .cont s fb b' (head ++ b') (w ++ (head ++ b')) [] fld ann ty hc.field hb' (hfr b' hn) (hc.wrap _ ?_) (.nil s)
        have : pos + (head ++ b').length = (c ++ (fb ++ (w ++ head))).length + n := by rw [hp]; simp; omega
        rw [this]; exact hend
      have := hc.opened.item hc.notFirst hc.struct hitem
      simpa using this
  | pad p body b q cs hin hf hn hat =>
    have hpos := List.length_pos_iff.2 (framed_ne_nil hf)
    subst hin
    have hitem := hc.pad p body (padField hc.field (by rw [← hc.name]; exact hn)) hf
    have := ih (c := c ++ (fb ++ (w ++ p))) (input := b) (stack := { f with first := false } :: fs) (q := q) (cs := cs)
      (by simp; omega) (hc.opened.item hc.notFirst hc.struct hitem) (by rw [hc.place] at hat; simpa [Nat.add_assoc] using hat) (by rw [hdoc]; simp)
    refine this.bind fun o' cs' hp => .pure (hp.mono ?_)
    rw [hk]; simp; omega
  | marker b q cs hin hd hat =>
    subst hin
    rw [hc.depth] at hd
    have hnf := hc.notFirst hd
    have hop := hc.opened
    have hfld := hc.field
    have hst := hc.struct
    cases hop with
    | fresh => simp at hnf
    | root t ht =>
      have : s = false := by cases s with | false => rfl | true => simp at hst
      subst this
      cases hfld
      refine .pure (.event _ q cs ([0xE0, 0x01, 0x00, 0xEA] ++ (t ++ (w ++ [0xE0, 0x01, 0x00, 0xEA]))) b _ rfl (by rw [hdoc]; simp) (.root _ (ht.append hc.marker)) ?_ ?_)
      · rw [hc.place] at hat; simpa [Nat.add_assoc] using hat
      · rw [hk]; simp; omega
    | level => simp at hd
  | wrapper n head len sids b ann q cs h1 h2 h3 h4 h5 h6 h7 => exact hwrapper n head len sids b ann q cs h1 h2 h3 h4 h5 h6 h7

theorem loop_ends (doc : Bytes) : ∀ m, LoopEnds doc m := by
  intro m
  induction m with
  | zero => intro c input stack q cs h; omega
  | succ m ih =>
    intro c input stack q cs hlen hop hat hdoc
    -- the frame
    obtain ⟨f, fs, rfl⟩ : ∃ f fs, stack = f :: fs := by cases hop <;> exact ⟨_, _, rfl⟩
    by_cases hdry : f.depth = 0 ∧ Dry q cs
    · -- the end of the input at the top level
      have hin := hat.dry_miss hdry.2
      subst hin
      obtain ⟨first, rfl, rfl, hwf⟩ : ∃ first, f = rootFrame first ∧ fs = [] ∧ WellFramedDoc c := by
        cases hop with
        | fresh => exact ⟨_, rfl, rfl, .inl rfl⟩
        | root t ht => exact ⟨_, rfl, rfl, .inr ⟨t, rfl, ht⟩⟩
        | level => simp at hdry
      obtain ⟨mm, hm, hl⟩ := dry_leads (first := first) hdry.2
      exact ⟨_, _, hl, .inl (.fin mm hm (by rw [hdoc]; simpa using hwf))⟩
    · by_cases hend : f.limit = some q.position
      · -- the end of a container
        simp only [containerLoop, hend, if_true]
        cases hop with
        | fresh => simp at hend
        | root => simp at hend
        | level c0 body ty n d first fs hb hcl =>
          have hn : body.length = n := by
            rw [hat.pos] at hend
            simp only [Option.some.injEq] at hend
            simp at hend
            omega
          exact .pure (.event _ q cs (c0 ++ body) input fs rfl hdoc (hcl body hb hn) hat (by simp))
      · -- the field name
        obtain ⟨s, hs⟩ : ∃ s : Bool, f.ionType = some .struct ↔ s = true := ⟨decide (f.ionType = some .struct), by simp⟩
        have hfield : Ends (containerLoop q (f :: fs)) cs (fun o' cs' => ∃ fb b q' fld, input = fb ++ b ∧ IsField s fb fld ∧
            o' = containerValue q' f fs (fld.map sidTok) ∧ At q' cs' (c.length + fb.length) b [] ∧ (f.depth = 0 → ¬ Dry q' cs')) := by
          simp only [containerLoop, hend, if_false]
          cases s with
          | false =>
            rw [if_neg (by rw [hs]; simp)]
            exact .pure ⟨[], input, q, none, rfl, .none, rfl, hat, fun h0 hd => hdry ⟨h0, hd⟩⟩
          | true =>
            rw [if_pos (hs.2 rfl)]
            refine (varUInt_ends input hat).bind ?_
            rintro o' cs' ⟨fb, b, q', rfl, h1, rfl, hat'⟩
            refine .pure ⟨fb, b, q', some (base128 0 fb), rfl, .some fb _ ⟨h1, rfl⟩, rfl, hat', ?_⟩
            intro h0
            exfalso
            cases hop with
            | fresh => simp at hs
            | root => simp at hs
            | level => simp at h0
        refine hfield.bind ?_
        rintro o' cs' ⟨fb, b, q', fld, rfl, hfb, rfl, hat', hd'⟩
        unfold containerValue
        refine (value_ends hat' (by simpa using hd')).bind ?_
        rintro o2 cs2 ⟨hpost, hivm⟩
        by_cases hfirst : (f.first && decide (f.depth = 0)) = true
        · -- the first version marker
          obtain ⟨b2, q2, hb2, rfl, hat2⟩ := hivm hfirst
          simp only [Bool.and_eq_true, decide_eq_true_eq] at hfirst
          cases hop with
          | fresh =>
            have : s = false := by cases s with | false => rfl | true => simp at hs
            subst this
            cases hfb
            subst hb2
            refine .pure (.event _ q2 cs2 ([0xE0, 0x01, 0x00, 0xEA] ++ []) b2 _ rfl (by rw [hdoc]; simp) (.root [] .nil) (by simpa using hat2) (by simp; omega))
          | root => simp at hfirst
          | level => simp at hfirst
        · have hnf : f.depth = 0 → f.first = false := by
            intro h0
            simpa [h0] using hfirst
          have hk : 2 * (fb ++ b).length + (f :: fs).length = 2 * (fb ++ ([] ++ b)).length + fs.length + 1 := by simp; omega
          refine item_ends (w := []) (ann := []) (fld := fld) (s := s) (c := c) (fb := fb) (input := b) ?_ ⟨hop, hnf, hs, hfb, rfl, rfl, by simp, fun inner _ => .bare inner, ?_, ?_⟩
            (by simpa using hdoc) hk ?_ hpost
          · intro c1 in1 st1 q1 cs1 hl1
            exact ih (by simp at hl1 hlen; omega)
          · intro p body h1 h2
            simpa using WellFramed.pad s fb p body [] h1 h2 (.nil s)
          · exact .marker [] .nil
          · -- an annotation wrapper
            intro n head len sids b3 ann q3 cs3 hin _ hhead hlen' hsids hann hat3
            subst hin
            refine (value_ends hat3 (by simp)).bind ?_
            rintro o4 cs4 ⟨hpost4, -⟩
            have hw : IsWrapperStart (head ++ (len ++ sids)) := ⟨n, head, len, sids, ann, hhead, hlen', hsids, hann, rfl⟩
            refine item_ends (w := head ++ (len ++ sids)) (ann := ann) (fld := fld) (s := s) (c := c) (fb := fb) (input := b3) ?_
              ⟨hop, hnf, hs, hfb, rfl, rfl, ?_, ?_, ?_, ?_⟩ (by rw [hdoc]; simp) ?_ ?_ hpost4
            · intro c1 in1 st1 q1 cs1 hl1
              exact ih (by simp at hl1 hlen; omega)
            · simp; omega
            · intro inner he
              have hl := he (by simpa using hann)
              simp only [Option.some.injEq] at hl
              have hn : n = (len ++ sids ++ inner).length := by simp at hl ⊢; omega
              have := wrapperHeader_framed (body := len ++ sids ++ inner) hhead hn.symm
              refine .wrapper ann len sids inner _ hann hsids hlen' ?_
              simpa using this
            · intro p body h1 h2
              simpa using WellFramed.annotatedPad s fb (head ++ (len ++ sids)) p body [] h1 hw h2 (.nil s)
            · simpa using WellFramedTop.annotatedMarker (head ++ (len ++ sids)) [] hw .nil
            · simp; omega
            · intro n' head' len' sids' b' ann' q' cs' _ hnone
              simp at hnone

/-! ## Requests -/

/-- The reader is somewhere in `doc`, at most `k` events before its end. -/
def Reading (doc : Bytes) (k : Nat) (st : Status) (cs : List Bytes) : Prop :=
  ∃ q stack c input, ((∃ top, st = .ready q stack top) ∨ st = .fresh q stack) ∧ doc = c ++ input ∧ Open c stack ∧
    At q cs c.length input [] ∧ 2 * input.length + stack.length ≤ k

theorem pull_reading {doc : Bytes} {k : Nat} {st : Status} {cs : List Bytes} (h : Reading doc k st cs) :
    (∃ e st' cs', pull st cs .next = (.ok e, st', cs') ∧ e.eventType.isStreamSignal = false ∧ 0 < k ∧ Reading doc (k - 1) st' cs') ∨
    (∃ err st' cs', pull st cs .next = (.error err, st', cs')) ∨
    (∃ st', Waiting st' ∧ pull st cs .next = (.ok ION_STREAM_INCOMPLETE_EVENT, st', [])) ∨
    (WellFramedDoc doc ∧ ∃ st', Waiting st' ∧ pull st cs .next = (.ok ION_STREAM_END_EVENT, st', [])) := by
  obtain ⟨q, stack, c, input, hst, hdoc, hop, hat, hk⟩ := h
  have hsend : send st .next = deliver (finish (.cont ⟨q, stack, .loop⟩)) := by
    rcases hst with ⟨top, rfl⟩ | rfl <;> rfl
  obtain ⟨o', cs', hl, h⟩ := loop_ends doc (input.length + 1) (by omega) hop hat hdoc
  have hl' : Leads (.cont ⟨q, stack, .loop⟩) cs o' cs' := .step hl
  unfold pull
  rw [hsend, hl'.absorb]
  rcases h with h | ⟨err, rfl⟩ | ⟨rfl, m, hm, rfl⟩
  · cases h with
    | event e q' cs' c' input' stack' h1 h2 h3 h4 h5 =>
      exact .inl ⟨e, _, cs', absorb_emit h1, h1, by omega, q', stack', c', input', .inl ⟨_, rfl⟩, h2, h3, h4, by omega⟩
    | fin m h1 h2 =>
      obtain ⟨st', hw, heq⟩ := absorb_block (b := true) h1
      exact .inr (.inr (.inr ⟨h2, st', hw, heq⟩))
  · exact .inr (.inl ⟨err, .dead, cs', by cases cs' <;> rfl⟩)
  · obtain ⟨st', hw, heq⟩ := absorb_block (b := false) hm
    exact .inr (.inr (.inl ⟨st', hw, heq⟩))

theorem reading_init {doc : Bytes} {cs : List Bytes} (hc : Chunks cs doc) : Reading doc (2 * doc.length + 1) init cs := by
  refine ⟨BufferQueue.empty, [rootFrame true], [], doc, .inr rfl, rfl, .fresh, ⟨{}, rel_empty, rfl, ?_, hc.2⟩, by simp⟩
  rw [hc.1]; simp

theorem replicate_next (n : Nat) : (List.replicate n Request.next).map toCmd = List.replicate n Cmd.next := by simp [toCmd]

theorem pulls_sound {doc : Bytes} : ∀ (n k : Nat) {st : Status} {cs : List Bytes}, Reading doc k st cs →
    .ok { eventType := .streamEnd } ∈ pulls st cs (List.replicate n .next) → WellFramedDoc doc := by
  intro n
  induction n with
  | zero => intro k st cs _ h; simp [pulls] at h
  | succ n ih =>
    intro k st cs hr h
    simp only [List.replicate_succ, pulls] at h
    rcases pull_reading hr with ⟨e, st', cs', h1, h2, -, h3⟩ | ⟨err, st', cs', h1⟩ | ⟨st', hw, h1⟩ | ⟨hwf, -⟩
    · rw [h1] at h
      simp only [List.mem_cons] at h
      rcases h with h | h
      · rw [← Except.ok.inj h] at h2; simp [IonEventType.isStreamSignal] at h2
      · exact ih _ h3 h
    · rw [h1] at h; simp at h
    · rw [h1] at h
      have := pulls_waiting hw (List.replicate n .next) ION_STREAM_INCOMPLETE_EVENT
      rw [replicate_next] at this
      simp only at h
      rw [this] at h
      cases n <;> simp [List.replicate_succ, atEnd, ION_STREAM_INCOMPLETE_EVENT] at h
    · exact hwf

/-- What reading a document that is not well framed gives: events, then an exception or, if the input ends too early,
`INCOMPLETE`. -/
theorem pulls_raise {doc : Bytes} (hbad : ¬ WellFramedDoc doc) : ∀ (n k : Nat) {st : Status} {cs : List Bytes}, Reading doc k st cs → k < n →
    ∃ es : List IonEvent, (∀ e ∈ es, e.eventType.isStreamSignal = false) ∧
      ((∃ err, pulls st cs (List.replicate n .next) = es.map .ok ++ [.error err]) ∨
       ∃ j, pulls st cs (List.replicate n .next) = es.map .ok ++ atEnd ION_STREAM_INCOMPLETE_EVENT (List.replicate j .next)) := by
  intro n
  induction n with
  | zero => intro k st cs _ h; omega
  | succ n ih =>
    intro k st cs hr hk
    simp only [List.replicate_succ, pulls]
    rcases pull_reading hr with ⟨e, st', cs', h1, h2, h0, h3⟩ | ⟨err, st', cs', h1⟩ | ⟨st', hw, h1⟩ | ⟨hwf, -⟩
    · obtain ⟨es, hes, hh⟩ := ih (k - 1) h3 (by omega)
      refine ⟨e :: es, ?_, ?_⟩
      · simpa using ⟨h2, hes⟩
      · rw [h1]
        rcases hh with ⟨err, hh⟩ | ⟨j, hh⟩
        · exact .inl ⟨err, by simp [hh]⟩
        · exact .inr ⟨j, by simp [hh]⟩
    · exact ⟨[], by simp, .inl ⟨err, by rw [h1]; rfl⟩⟩
    · refine ⟨[], by simp, .inr ⟨n, ?_⟩⟩
      rw [h1]
      have := pulls_waiting hw (List.replicate n .next) ION_STREAM_INCOMPLETE_EVENT
      rw [replicate_next] at this
      simpa using this
    · exact absurd hwf hbad

/-- **C42**  If a reader, whatever the chunks, answers `STREAM_END` to one of a sequence of `NEXT` requests over the whole of
`doc`, then `doc` is a well-framed binary document. -/
theorem C42_accepted_is_well_framed (doc : Bytes) (cs : List Bytes) (hc : Chunks cs doc) (n : Nat)
    (h : .ok { eventType := .streamEnd } ∈ nexts cs n) : WellFramedDoc doc := by
  refine pulls_sound n _ (reading_init hc) ?_
  rw [← replicate_next]; exact h

/-- **C42**  Reading a document that is not well framed through `blocking_reader` with `NEXT` gives a number of events (at most
twice the number of octets, and none of them the end of the stream) and then an exception. -/
theorem C42_malformed_raises (doc : Bytes) (hbad : ¬ WellFramedDoc doc) (cs : List Bytes) (hc : Chunks cs doc) (m : Nat)
    (hm : 2 * doc.length + 1 < m) :
    ∃ (es : List IonEvent) (err : PyErr), Blocking.rawRun cs (List.replicate m .next) = es.map .ok ++ [.error err] ∧
      ∀ e ∈ es, e.eventType ≠ .streamEnd ∧ e.eventType ≠ .incomplete := by
  obtain ⟨es, hes, hh⟩ := pulls_raise hbad m _ (reading_init hc) hm
  have hb : Blocking.rawRun cs (List.replicate m .next) = asBlocking (pulls init cs (List.replicate m .next)) := by
    have := blocking_run (List.replicate m .next) (cs := cs) statusOk_init
    simpa [Blocking.rawRun, nexts, toCmd] using this
  have hsig : ∀ e ∈ es, e.eventType ≠ .streamEnd ∧ e.eventType ≠ .incomplete := by
    intro e he
    have := hes e he
    constructor <;> intro hc <;> rw [hc] at this <;> simp [IonEventType.isStreamSignal] at this
  have key : ∀ (es : List IonEvent) (tl : List (Except PyErr IonEvent)), (∀ e ∈ es, e.eventType ≠ .streamEnd ∧ e.eventType ≠ .incomplete) →
      asBlocking (es.map .ok ++ tl) = es.map .ok ++ asBlocking tl := by
    intro es
    induction es with
    | nil => intros; rfl
    | cons e es ih =>
      intro tl h
      have he := h e (by simp)
      simp only [List.map_cons, List.cons_append, asBlocking, he.1, he.2, if_false, ih tl (fun e' h' => h e' (by simp [h']))]
  rcases hh with ⟨err, hh⟩ | ⟨j, hh⟩
  · exact ⟨es, err, by rw [hb, hh, key es _ hsig]; rfl, hsig⟩
  · refine ⟨es, .typeError, ?_, hsig⟩
    rw [hb, hh, key es _ hsig]
    cases j <;> simp [atEnd, asBlocking, ION_STREAM_INCOMPLETE_EVENT, List.replicate_succ]

end Ion.RawReader

/-! ## The kinds of defects -/
namespace Ion.Spec
open Ion Ion.Fields Ion.Fields.Spec Ion.Scalars Ion.Scalars.Spec Ion.RawReader

theorem delimited_unique {a b r r' : Bytes} (ha : Delimited a) (hb : Delimited b) (h : a ++ r = b ++ r') : a = b ∧ r = r' := by
  induction ha generalizing b with
  | last x hx =>
    cases hb with
    | last y hy => simpa using h
    | more y ys hy _ =>
      simp only [List.cons_append, List.cons.injEq] at h
      obtain ⟨rfl, -⟩ := h; omega
  | more x xs hx _ ih =>
    cases hb with
    | last y hy =>
      simp only [List.cons_append, List.cons.injEq] at h
      obtain ⟨rfl, -⟩ := h; omega
    | more y ys hy hys =>
      simp only [List.cons_append, List.cons.injEq] at h
      obtain ⟨rfl, h⟩ := h
      obtain ⟨rfl, h2⟩ := ih hys h
      exact ⟨rfl, h2⟩

theorem field_unique {s : Bool} {f g r r' : Bytes} {a b : Option Nat} (hf : IsField s f a) (hg : IsField s g b) (h : f ++ r = g ++ r') :
    f = g ∧ r = r' ∧ a = b := by
  cases hf with
  | none => cases hg with | none => exact ⟨rfl, h, rfl⟩
  | some f n hn =>
    cases hg with
    | some g m hm =>
      obtain ⟨rfl, h2⟩ := delimited_unique hn.1 hm.1 h
      exact ⟨rfl, h2, by rw [← hn.2, ← hm.2]⟩

/-- The contents of a container or of the top level. -/
def Contents (top s : Bool) (b : Bytes) : Prop := if top then s = false ∧ WellFramedTop b else WellFramed s b

/-- One element and what follows it. -/
inductive First (top s : Bool) : Bytes → Prop
  | pad (f p body rest : Bytes) : IsPadField s f → Framed 0 p body → Contents top s rest → First top s (f ++ (p ++ rest))
  | scalar (f inner v rest : Bytes) (field : Option Nat) (ann : List Nat) : IsField s f field → IsPlain inner → Wrapped ann inner v →
      Contents top s rest → First top s (f ++ (v ++ rest))
  | cont (f body inner v rest : Bytes) (field : Option Nat) (ann : List Nat) (ty : CType) : IsField s f field →
      WellFramed (ty = .struct) body → FramedContainer ty true inner body → Wrapped ann inner v → Contents top s rest →
      First top s (f ++ (v ++ rest))
  | annotatedPad (f w p body rest : Bytes) : IsPadField s f → IsWrapperStart w → Framed 0 p body → Contents top s rest →
      First top s (f ++ (w ++ (p ++ rest)))
  | marker (rest : Bytes) : top = true → s = false → Contents top s rest → First top s ([0xE0, 0x01, 0x00, 0xEA] ++ rest)
  | annotatedMarker (w rest : Bytes) : top = true → s = false → IsWrapperStart w → Contents top s rest →
      First top s (w ++ ([0xE0, 0x01, 0x00, 0xEA] ++ rest))

theorem contents_first {top s : Bool} {b : Bytes} (h : Contents top s b) (hne : b ≠ []) : First top s b := by
  have inner : ∀ (b tail : Bytes), WellFramed s b → b ≠ [] → (∀ rest, WellFramed s rest → Contents top s (rest ++ tail)) → First top s (b ++ tail) := by
    intro b tail hb hne ht
    cases hb with
    | nil => exact absurd rfl hne
    | pad _ f p body rest h1 h2 h3 => simpa using First.pad f p body _ h1 h2 (ht rest h3)
    | scalar _ f inner v rest field ann h1 h2 h3 h4 => simpa using First.scalar f inner v _ field ann h1 h2 h3 (ht rest h4)
    | cont _ f body inner v rest field ann ty h1 h2 h3 h4 h5 => simpa using First.cont f body inner v _ field ann ty h1 h2 h3 h4 (ht rest h5)
    | annotatedPad _ f w p body rest h1 h2 h3 h4 => simpa using First.annotatedPad f w p body _ h1 h2 h3 (ht rest h4)
  cases top with
  | false =>
    simp only [Contents, Bool.false_eq_true, if_false] at h
    simpa using inner b [] h hne (by intro rest hr; simpa [Contents] using hr)
  | true =>
    simp only [Contents, if_true] at h
    obtain ⟨rfl, h⟩ := h
    induction h with
    | nil => exact absurd rfl hne
    | items body rest hb hr ih =>
      by_cases h0 : body = []
      · subst h0
        exact ih (by simpa using hne)
      · exact inner body rest hb h0 (fun r hr' => by simpa [Contents] using WellFramedTop.items r rest hr' hr)
    | marker rest hr => exact .marker rest rfl rfl (by simpa [Contents] using hr)
    | annotatedMarker w rest hw hr => exact .annotatedMarker w rest rfl rfl hw (by simpa [Contents] using hr)

theorem padField_field {s : Bool} {f : Bytes} (h : IsPadField s f) : ∃ fld, IsField s f fld ∧ fld.getD 0 = 0 := by
  cases s with
  | false => simp only [IsPadField, Bool.false_eq_true, if_false] at h; subst h; exact ⟨none, .none, rfl⟩
  | true => simp only [IsPadField, if_true] at h; exact ⟨some 0, .some f 0 h, rfl⟩

theorem wrapperStart_unique {n n' : Nat} {head head' len len' sids sids' r r' : Bytes} (h1 : IsWrapperHeader n head) (h1' : IsWrapperHeader n' head')
    (h2 : IsVarUInt len sids.length) (h2' : IsVarUInt len' sids'.length)
    (h : head ++ (len ++ (sids ++ r)) = head' ++ (len' ++ (sids' ++ r'))) : head = head' ∧ n = n' ∧ len = len' ∧ sids = sids' ∧ r = r' := by
  have hhead : head = head' ∧ n = n' ∧ len ++ (sids ++ r) = len' ++ (sids' ++ r') := by
    cases h1 with
    | short x ha hb hc =>
      cases h1' with
      | short y ha' hb' hc' =>
        simp only [List.cons_append, List.nil_append, List.cons.injEq] at h
        obtain ⟨rfl, h⟩ := h
        exact ⟨rfl, by omega, h⟩
      | long y l ha' hb' =>
        simp only [List.cons_append, List.nil_append, List.cons.injEq] at h
        obtain ⟨rfl, h⟩ := h
        omega
    | long x l ha hb =>
      cases h1' with
      | short y ha' hb' hc' =>
        simp only [List.cons_append, List.nil_append, List.cons.injEq] at h
        obtain ⟨rfl, h⟩ := h
        omega
      | long y l' ha' hb' =>
        simp only [List.cons_append, List.nil_append, List.cons.injEq] at h
        obtain ⟨rfl, h⟩ := h
        obtain ⟨e, h9⟩ := delimited_unique hb.1 hb'.1 h
        exact ⟨by rw [e], by rw [← hb.2, ← hb'.2, e], h9⟩
  obtain ⟨e1, e2, h8⟩ := hhead
  subst e1 e2
  obtain ⟨e3, h9⟩ := delimited_unique h2.1 h2'.1 h8
  subst e3
  have hl : sids.length = sids'.length := by rw [← h2.2, ← h2'.2]
  obtain ⟨h3, h4⟩ := List.append_inj h9 hl
  exact ⟨rfl, rfl, rfl, h3, h4⟩

theorem framed_head {t : Nat} {bs body : Bytes} (h : Framed t bs body) : ∃ x xs, bs = x :: xs ∧ x.toNat / 16 = t ∧ x.toNat % 16 ≤ 14 := by
  cases h with
  | short x _ h1 h2 => exact ⟨x, _, rfl, by omega, by omega⟩
  | long x len _ h1 h2 => exact ⟨x, _, rfl, by omega, by omega⟩

theorem plain_head {v : Bytes} (h : IsPlain v) : ∃ x xs, v = x :: xs ∧ LegalOctet x ∧ x.toNat < 0xE0 ∧ 0x0F ≤ x.toNat := by
  cases h with
  | null h h1 h2 => exact ⟨h, [], rfl, by simp only [LegalOctet]; omega, by omega, by omega⟩
  | bool b => cases b <;> exact ⟨_, [], rfl, by simp [LegalOctet], by decide, by decide⟩
  | float0 => exact ⟨_, _, rfl, by simp [LegalOctet], by decide, by decide⟩
  | float4 => exact ⟨_, _, rfl, by simp [LegalOctet], by decide, by decide⟩
  | float8 => exact ⟨_, _, rfl, by simp [LegalOctet], by decide, by decide⟩
  | body tid _ body ht hf h3 h6 =>
    cases hf with
    | short x body h1 h2 =>
      refine ⟨x, _, rfl, ?_, by omega, by omega⟩
      have c3 : ¬ (tid = 3 ∧ body = []) := by
        rintro ⟨rfl, rfl⟩
        simp only [List.length_nil, Nat.add_zero] at h2
        exact h3 (by rw [dispatch_of h2]; rfl)
      have c6 : ¬ (tid = 6 ∧ body = []) := by
        rintro ⟨rfl, rfl⟩
        simp only [List.length_nil, Nat.add_zero] at h2
        exact h6 (by rw [dispatch_of h2]; rfl)
      have e0 : body = [] ↔ body.length = 0 := by simp
      rw [e0] at c3 c6
      simp only [LegalOctet]
      omega
    | long x len body h1 h2 => exact ⟨x, _, rfl, by simp only [LegalOctet]; omega, by omega, by omega⟩

theorem container_head {ty : CType} {o : Bool} {bs body : Bytes} (h : FramedContainer ty o bs body) :
    ∃ x xs, bs = x :: xs ∧ LegalOctet x ∧ x.toNat < 0xE0 ∧ 0x0F ≤ x.toNat := by
  have main : ∀ {t : Nat}, t = 11 ∨ t = 12 ∨ t = 13 → Framed t bs body → ∃ x xs, bs = x :: xs ∧ LegalOctet x ∧ x.toNat < 0xE0 ∧ 0x0F ≤ x.toNat := by
    intro t ht hf
    obtain ⟨x, xs, rfl, h1, h2⟩ := framed_head hf
    exact ⟨x, xs, rfl, by simp only [LegalOctet]; omega, by omega, by omega⟩
  cases h with
  | list _ _ _ hf => exact main (by simp) hf
  | sexp _ _ _ hf => exact main (by simp) hf
  | struct _ _ _ hf => exact main (by simp) hf
  | ordered len body _ _ => exact ⟨_, _, rfl, by simp [LegalOctet], by decide, by decide⟩

theorem wrapper_head {ann : List Nat} {inner v : Bytes} (h : Wrapped ann inner v) (hann : ann ≠ []) (hne : inner ≠ []) :
    ∃ n head len sids, IsWrapperHeader n head ∧ IsVarUInt len sids.length ∧ IsSids sids ann ∧ v = head ++ (len ++ (sids ++ inner)) ∧
      n = len.length + sids.length + inner.length := by
  cases h with
  | bare => exact absurd rfl hann
  | wrapper _ len sids _ _ _ hs hl hf =>
    have h1 := List.length_pos_iff.2 (Delimited.ne_nil hl.1)
    have h2 := isSids_length hs hann
    have h3 := List.length_pos_iff.2 hne
    cases hf with
    | short x _ ha hb =>
      refine ⟨len.length + sids.length + inner.length, [x], len, sids, .short x ?_ ?_ (by omega), hl, hs, by simp, rfl⟩
      · simp at ha; omega
      · simp at hb; omega
    | long x len2 _ ha hb =>
      refine ⟨len.length + sids.length + inner.length, x :: len2, len, sids, .long x len2 (by omega) ?_, hl, hs, by simp, rfl⟩
      simpa [Nat.add_assoc] using hb

/-- What an octet after the field name can be. -/
theorem first_cases {top s : Bool} {f : Bytes} {field : Option Nat} {h : UInt8} {r : Bytes} (hf : IsField s f field) (hc : First top s (f ++ h :: r)) :
    (h.toNat < 0x0F ∧ field.getD 0 = 0 ∧ ∃ p body rest, h :: r = p ++ rest ∧ Framed 0 p body ∧ Contents top s rest) ∨
    (∃ inner v rest ann, h :: r = v ++ rest ∧ IsPlain inner ∧ Wrapped ann inner v ∧ Contents top s rest) ∨
    (∃ body inner v rest ann ty, h :: r = v ++ rest ∧ WellFramed (decide (ty = CType.struct)) body ∧ FramedContainer ty true inner body ∧
      Wrapped ann inner v ∧ Contents top s rest) ∨
    (∃ w p body rest, h :: r = w ++ (p ++ rest) ∧ IsWrapperStart w ∧ Framed 0 p body ∧ Contents top s rest) ∨
    (top = true ∧ ∃ rest, h :: r = [0xE0, 0x01, 0x00, 0xEA] ++ rest ∧ Contents top s rest) ∨
    (top = true ∧ ∃ w rest, h :: r = w ++ ([0xE0, 0x01, 0x00, 0xEA] ++ rest) ∧ IsWrapperStart w ∧ Contents top s rest) := by
  generalize hb : f ++ h :: r = b at hc
  cases hc with
  | pad f' p body rest h1 h2 h3 =>
    obtain ⟨fld, h4, h5⟩ := padField_field h1
    obtain ⟨-, h6, rfl⟩ := field_unique hf h4 hb
    obtain ⟨x, xs, rfl, h7, h8⟩ := framed_head h2
    simp only [List.cons_append, List.cons.injEq] at h6
    obtain ⟨rfl, rfl⟩ := h6
    exact .inl ⟨by omega, h5, _, body, rest, rfl, h2, h3⟩
  | scalar f' inner v rest field' ann h1 h2 h3 h4 =>
    obtain ⟨-, h6, -⟩ := field_unique hf h1 hb
    exact .inr (.inl ⟨inner, v, rest, ann, h6, h2, h3, h4⟩)
  | cont f' body inner v rest field' ann ty h1 h2 h3 h4 h5 =>
    obtain ⟨-, h6, -⟩ := field_unique hf h1 hb
    exact .inr (.inr (.inl ⟨body, inner, v, rest, ann, ty, h6, h2, h3, h4, h5⟩))
  | annotatedPad f' w p body rest h1 h2 h3 h4 =>
    obtain ⟨fld, h5, -⟩ := padField_field h1
    obtain ⟨-, h6, -⟩ := field_unique hf h5 hb
    exact .inr (.inr (.inr (.inl ⟨w, p, body, rest, h6, h2, h3, h4⟩)))
  | marker rest h1 h2 h3 =>
    subst h2
    cases hf
    exact .inr (.inr (.inr (.inr (.inl ⟨h1, rest, hb, h3⟩))))
  | annotatedMarker w rest h1 h2 h3 h4 =>
    subst h2
    cases hf
    exact .inr (.inr (.inr (.inr (.inr ⟨h1, w, rest, hb, h3, h4⟩))))

theorem plain_extent {v : Bytes} (h : IsPlain v) (r : Bytes) : extent (v ++ r) = some v.length := by
  have one : ∀ c : UInt8, extent [c] = some 1 → extent ([c] ++ r) = some [c].length := fun c hc => extent_mono hc
  cases h with
  | null h h1 h2 =>
    refine one h ?_
    simp only [extent]
    rw [if_neg (by omega), if_pos (by omega)]
  | bool b => cases b <;> exact one _ (by decide)
  | float0 => exact one _ (by decide)
  | float4 body hb => exact framed_extent (t := 4) (by simp) (by simp) (by simp) (by simp) (.short 0x44 body (by omega) (by simp [hb])) r
  | float8 body hb => exact framed_extent (t := 4) (by simp) (by simp) (by simp) (by simp) (.short 0x48 body (by omega) (by simp [hb])) r
  | body tid _ body ht hf h3 h6 => exact framed_extent (by omega) (by omega) (by omega) (by omega) hf r

theorem wellFramed_struct_length {body : Bytes} (h : WellFramed true body) (hne : body ≠ []) : 2 ≤ body.length := by
  have fl : ∀ {f : Bytes} {fld : Option Nat}, IsField true f fld → 1 ≤ f.length := by
    intro f fld h
    cases h with | some f n hn => exact List.length_pos_iff.2 (Delimited.ne_nil hn.1)
  cases h with
  | nil => exact absurd rfl hne
  | pad _ f p pb rest hf hp _ =>
    simp only [IsPadField, if_true] at hf
    have h1 := List.length_pos_iff.2 (Delimited.ne_nil hf.1)
    have h2 := List.length_pos_iff.2 (framed_ne_nil hp)
    simp; omega
  | scalar _ f inner v rest _ _ hf hi hw _ =>
    have h1 := fl hf
    have h2 := List.length_pos_iff.2 (wrapped_ne_nil hw (plain_ne_nil hi))
    simp; omega
  | cont _ f body inner v rest _ _ _ hf _ hc hw _ =>
    have h1 := fl hf
    have h2 := List.length_pos_iff.2 (wrapped_ne_nil hw (framedContainer_ne_nil hc))
    simp; omega
  | annotatedPad _ f w p pb rest hf _ hp _ =>
    simp only [IsPadField, if_true] at hf
    have h1 := List.length_pos_iff.2 (Delimited.ne_nil hf.1)
    have h2 := List.length_pos_iff.2 (framed_ne_nil hp)
    simp; omega

theorem container_extent' {ty : CType} {o : Bool} {bs body : Bytes} (hs : ty = .struct → body.length ≠ 1)
    (h : FramedContainer ty o bs body) (r : Bytes) : extent (bs ++ r) = some bs.length := by
  cases h with
  | list _ _ _ hf => exact framed_extent (by simp) (by simp) (by simp) (by simp) hf r
  | sexp _ _ _ hf => exact framed_extent (by simp) (by simp) (by simp) (by simp) hf r
  | struct _ _ _ hf => exact framed_extent (by simp) (by simp) (by simp) (fun _ => hs rfl) hf r
  | ordered len body hne hl => exact extent_long (by decide) (by decide) (by decide) hl

theorem wellFramed_one {ty : CType} {body : Bytes} (h : WellFramed (decide (ty = .struct)) body) : ty = .struct → body.length ≠ 1 := by
  rintro rfl hl
  have := wellFramed_struct_length (by simpa using h) (by rintro rfl; simp at hl)
  omega

/-- An unwrapped value in a well-framed sequence. -/
def Inner (inner : Bytes) : Prop :=
  IsPlain inner ∨ ∃ ty body, WellFramed (decide (ty = CType.struct)) body ∧ FramedContainer ty true inner body

theorem Inner.extent {inner : Bytes} (h : Inner inner) (r : Bytes) : extent (inner ++ r) = some inner.length := by
  rcases h with h | ⟨ty, body, h1, h2⟩
  · exact plain_extent h r
  · exact container_extent' (wellFramed_one h1) h2 r

theorem Inner.head {inner : Bytes} (h : Inner inner) : ∃ x xs, inner = x :: xs ∧ LegalOctet x ∧ x.toNat < 0xE0 ∧ 0x0F ≤ x.toNat := by
  rcases h with h | ⟨ty, body, h1, h2⟩
  · exact plain_head h
  · exact container_head h2

theorem wrapperHeader_head {n : Nat} {head : Bytes} (h : IsWrapperHeader n head) : ∃ x xs, head = x :: xs ∧ LegalOctet x ∧ 0xE0 < x.toNat := by
  cases h with
  | short x h1 h2 h3 => exact ⟨x, [], rfl, by simp only [LegalOctet]; omega, by omega⟩
  | long x len h1 h2 => exact ⟨x, len, rfl, by simp only [LegalOctet]; omega, by omega⟩

/-- What can follow the field name, in terms of unwrapped values. -/
def OctetCases (top s : Bool) (field : Option Nat) (h : UInt8) (r : Bytes) : Prop :=
    (h.toNat < 0x0F ∧ field.getD 0 = 0 ∧ ∃ p body rest, h :: r = p ++ rest ∧ Framed 0 p body ∧ Contents top s rest) ∨
    (0x0F ≤ h.toNat ∧ h.toNat < 0xE0 ∧ LegalOctet h ∧ ∃ inner rest, h :: r = inner ++ rest ∧ Inner inner ∧ Contents top s rest) ∨
    (0xE0 < h.toNat ∧ LegalOctet h ∧ ∃ n head len sids ann h' r', IsWrapperHeader n head ∧ IsVarUInt len sids.length ∧ IsSids sids ann ∧ ann ≠ [] ∧
      h :: r = head ++ (len ++ (sids ++ h' :: r')) ∧
      ((∃ inner rest, h' :: r' = inner ++ rest ∧ n = len.length + sids.length + inner.length ∧ Inner inner ∧ Contents top s rest) ∨
       h'.toNat < 0x0F ∨ (top = true ∧ h' = 0xE0))) ∨
    (top = true ∧ h = 0xE0 ∧ ∃ rest, r = [0x01, 0x00, 0xEA] ++ rest ∧ Contents top s rest)

/-- An octet after the field name, in terms of unwrapped values. -/
theorem octet_cases {top s : Bool} {f : Bytes} {field : Option Nat} {h : UInt8} {r : Bytes} (hf : IsField s f field)
    (hc : Contents top s (f ++ h :: r)) : OctetCases top s field h r := by
  have value : ∀ {inner v rest : Bytes} {ann : List Nat}, h :: r = v ++ rest → Inner inner → Wrapped ann inner v → Contents top s rest → OctetCases top s field h r :=
    fun {inner v rest ann} hv hi hw hr => by
      by_cases hann : ann = []
      · subst hann
        cases hw with
        | bare =>
          obtain ⟨x, xs, rfl, h1, h2, h3⟩ := hi.head
          simp only [List.cons_append, List.cons.injEq] at hv
          obtain ⟨rfl, rfl⟩ := hv
          exact Or.inr (Or.inl ⟨h3, h2, h1, _, rest, rfl, hi, hr⟩)
        | wrapper _ _ _ _ _ hne => exact absurd rfl hne
      · obtain ⟨x, xs, hx, h1, h2, h3⟩ := hi.head
        obtain ⟨n, head, len, sids, g1, g2, g3, g4, g5⟩ := wrapper_head hw hann (by rw [hx]; simp)
        obtain ⟨y, ys, hy, k1, k2⟩ := wrapperHeader_head g1
        subst g4 hx
        have hyh : h = y := by
          subst hy
          simp only [List.cons_append, List.cons.injEq] at hv
          exact hv.1
        refine Or.inr (Or.inr (Or.inl ⟨by rw [hyh]; exact k2, by rw [hyh]; exact k1, n, head, len, sids, ann, x, xs ++ rest, g1, g2, g3, hann, ?_, .inl ⟨x :: xs, rest, rfl, g5, hi, hr⟩⟩))
        rw [hv]; simp
  rcases first_cases hf (contents_first hc (by simp)) with h1 | ⟨inner, v, rest, ann, h1, h2, h3, h4⟩ | ⟨body, inner, v, rest, ann, ty, h1, h2, h3, h4, h5⟩ |
      ⟨w, p, body, rest, h1, h2, h3, h4⟩ | ⟨h1, rest, h2, h3⟩ | ⟨h1, w, rest, h2, h3, h4⟩
  · exact .inl h1
  · exact value h1 (.inl h2) h3 h4
  · exact value h1 (.inr ⟨ty, body, h2, h3⟩) h4 h5
  · obtain ⟨n, head, len, sids, ann, g1, g2, g3, g4, rfl⟩ := h2
    obtain ⟨x, xs, rfl, k1, k2⟩ := framed_head h3
    obtain ⟨y, ys, hy, m1, m2⟩ := wrapperHeader_head g1
    have hyh : h = y := by
      subst hy
      simp only [List.cons_append, List.cons.injEq] at h1
      exact h1.1
    exact .inr (.inr (.inl ⟨by rw [hyh]; exact m2, by rw [hyh]; exact m1, n, head, len, sids, ann, x, xs ++ rest, g1, g2, g3, g4, by rw [h1]; simp, .inr (.inl (by omega))⟩))
  · simp only [List.cons_append, List.cons.injEq, List.nil_append] at h2
    exact .inr (.inr (.inr ⟨h1, h2.1, rest, h2.2, h3⟩))
  · obtain ⟨n, head, len, sids, ann, g1, g2, g3, g4, rfl⟩ := h3
    obtain ⟨y, ys, hy, m1, m2⟩ := wrapperHeader_head g1
    have hyh : h = y := by
      subst hy
      simp only [List.cons_append, List.cons.injEq] at h2
      exact h2.1
    exact .inr (.inr (.inl ⟨by rw [hyh]; exact m2, by rw [hyh]; exact m1, n, head, len, sids, ann, 0xE0, [0x01, 0x00, 0xEA] ++ rest, g1, g2, g3, g4, by rw [h2]; simp, .inr (.inr ⟨h1, rfl⟩)⟩))

/-- A value at the front of a well-framed sequence: the sequence parses it as that value. -/
theorem value_cases {top s : Bool} {f inner v R : Bytes} {field : Option Nat} {ann : List Nat} {x : UInt8} {xs : Bytes}
    (hf : IsField s f field) (hx : inner = x :: xs) (h0 : 0x0F ≤ x.toNat) (h1 : x.toNat < 0xE0)
    (he : ∀ r, extent (inner ++ r) = some inner.length) (hw : Wrapped ann inner v) (hc : Contents top s (f ++ (v ++ R))) :
    Inner inner ∧ Contents top s R := by
  have fit : ∀ {i2 rest : Bytes}, inner ++ R = i2 ++ rest → Inner i2 → i2 = inner ∧ rest = R := by
    intro i2 rest h hi
    have e1 := he R
    rw [h, hi.extent] at e1
    obtain ⟨h2, h3⟩ := List.append_inj h (by simpa using e1.symm)
    exact ⟨h2.symm, h3.symm⟩
  by_cases hann : ann = []
  · subst hann
    cases hw with
    | wrapper _ _ _ _ _ hne => exact absurd rfl hne
    | bare =>
      subst hx
      rcases octet_cases hf hc with ⟨g1, -⟩ | ⟨-, -, -, i2, rest, g1, g2, g3⟩ | ⟨g1, -⟩ | ⟨-, g1, -⟩
      · omega
      · obtain ⟨rfl, rfl⟩ := fit g1 g2
        exact ⟨g2, g3⟩
      · omega
      · rw [g1] at h1; simp at h1
  · obtain ⟨n, head, len, sids, g1, g2, g3, g4, g5⟩ := wrapper_head hw hann (by rw [hx]; simp)
    obtain ⟨y, ys, hy, k1, k2⟩ := wrapperHeader_head g1
    have hv : v ++ R = y :: (ys ++ (len ++ (sids ++ inner)) ++ R) := by rw [g4, hy]; simp
    rw [hv] at hc
    rcases octet_cases hf hc with ⟨g1, -⟩ | ⟨-, g1, -⟩ | ⟨-, -, n', head', len', sids', ann', h', r', m1, m2, m3, m4, m5, m6⟩ | ⟨-, g1, -⟩
    · omega
    · omega
    · have hu : head ++ (len ++ (sids ++ (inner ++ R))) = head' ++ (len' ++ (sids' ++ h' :: r')) := by
        rw [← m5, hy]; simp
      obtain ⟨-, rfl, -, -, hr⟩ := wrapperStart_unique g1 m1 g2 m2 hu
      rcases m6 with ⟨i2, rest, p1, p2, p3, p4⟩ | p1 | ⟨-, p1⟩
      · obtain ⟨rfl, rfl⟩ := fit (hr.trans p1) p3
        exact ⟨p3, p4⟩
      · rw [hx] at hr
        simp only [List.cons_append, List.cons.injEq] at hr
        rw [← hr.1] at p1; omega
      · rw [hx] at hr
        simp only [List.cons_append, List.cons.injEq] at hr
        rw [← hr.1] at p1
        rw [p1] at h1; simp at h1
    · rw [g1] at k2; simp at k2

theorem scalar_plain {inner : Bytes} {x : Scalar Nat} (h : IsScalar inner x) : IsPlain inner := by
  have no : ∀ {t : Nat} {bs body : Bytes}, Framed t bs body → body ≠ [] ∨ (t ≠ 3 ∧ t ≠ 6) → bs ≠ [0x30] ∧ bs ≠ [0x60] := by
    intro t bs body hf hb
    have key : ∀ b : UInt8, b.toNat = 0x30 ∨ b.toNat = 0x60 → bs ≠ [b] := by
      rintro b hb' rfl
      generalize hbs : [b] = bs at hf
      cases hf with
      | short x body h1 h2 =>
        simp only [List.cons.injEq] at hbs
        obtain ⟨rfl, rfl⟩ := hbs
        rcases hb with hb | hb
        · exact absurd rfl hb
        · simp only [List.length_nil] at h2; omega
      | long x len body h1 h2 =>
        simp only [List.cons.injEq] at hbs
        obtain ⟨rfl, -⟩ := hbs
        omega
    exact ⟨key _ (.inl rfl), key _ (.inr rfl)⟩
  cases h with
  | null ty h hh =>
    have : typeCode ty ≤ 13 := by cases ty <;> simp [typeCode]
    exact .null h (by omega) (by omega)
  | bool b => exact .bool b
  | int bs body neg hf hnz =>
    have : body ≠ [] ∨ ((if neg then 3 else 2) ≠ 3 ∧ (if neg then 3 else 2) ≠ 6) := by
      cases neg with
      | false => right; simp
      | true => left; rintro rfl; exact hnz rfl rfl
    exact .body _ _ body (by cases neg <;> simp) hf (no hf this).1 (no hf this).2
  | float0 => exact .float0
  | float4 body hb => exact .float4 body hb
  | float8 body hb => exact .float8 body hb
  | decimal0 => exact .body 5 _ [] (by simp) (.short 0x50 [] (by simp) rfl) (by decide) (by decide)
  | decimal bs body d hf hne _ => exact .body 5 _ body (by simp) hf (no hf (.inl hne)).1 (no hf (.inl hne)).2
  | timestamp bs body t hf ht =>
    have hne : body ≠ [] := by
      rintro rfl
      obtain ⟨p, u, off, fields, -, ho, -, -, hb⟩ := ht
      have hoff : off = [] := by cases off with | nil => rfl | cons => simp at hb
      subst hoff
      rcases ho with ⟨-, h1, -⟩ | ⟨_, _, ⟨h1, -⟩, -⟩ <;> cases h1
    exact .body 6 _ body (by simp) hf (no hf (.inl hne)).1 (no hf (.inl hne)).2
  | symbol bs body hf => exact .body 7 _ body (by simp) hf (no hf (.inr (by simp))).1 (no hf (.inr (by simp))).2
  | string bs body t hf _ => exact .body 8 _ body (by simp) hf (no hf (.inr (by simp))).1 (no hf (.inr (by simp))).2
  | clob bs body hf => exact .body 9 _ body (by simp) hf (no hf (.inr (by simp))).1 (no hf (.inr (by simp))).2
  | blob bs body hf => exact .body 10 _ body (by simp) hf (no hf (.inr (by simp))).1 (no hf (.inr (by simp))).2

theorem framedContainer_ordered {ty : CType} {o : Bool} {inner body : Bytes} (h : FramedContainer ty o inner body) : FramedContainer ty true inner body := by
  cases h with
  | list _ _ _ hf => exact .list _ _ _ hf
  | sexp _ _ _ hf => exact .sexp _ _ _ hf
  | struct _ _ _ hf => exact .struct _ _ _ hf
  | ordered len body h1 h2 => exact .ordered len body h1 h2

/-- Correct values are well framed. -/
theorem items_wellFramed {s : Bool} {b : Bytes} {items : List (Node Nat)} (h : IsItems s b items) : WellFramed s b := by
  induction h with
  | nil s => exact .nil s
  | pad s f p body rest items h1 h2 _ ih => simpa using WellFramed.pad s f p body rest h1 h2 ih
  | scalar s f inner v rest field ann x items h1 h2 h3 _ ih => simpa using WellFramed.scalar s f inner v rest field ann h1 (scalar_plain h2) h3 ih
  | cont s f body inner v rest field ann ty ch items o h1 _ _ h4 h5 _ ih1 ih2 =>
    simpa using WellFramed.cont s f body inner v rest field ann ty h1 ih1 (framedContainer_ordered h4) h5 ih2

/-- A correct document is well framed. -/
theorem stream_wellFramed {doc : Bytes} {segs : List (List (Node Nat))} (h : IsStream doc segs) : WellFramedDoc doc ∧ WellFramedTop doc := by
  induction h with
  | nil => exact ⟨.inl rfl, .nil⟩
  | segment body rest items segs hi _ ih =>
    have := WellFramedTop.items body rest (items_wellFramed hi) ih.2
    exact ⟨.inr ⟨_, by simp, this⟩, by simpa using WellFramedTop.marker _ this⟩

/-- Correct values in front do not matter. -/
theorem contents_drop {top s : Bool} {x R : Bytes} {items : List (Node Nat)} (hx : IsItems s x items) (hc : Contents top s (x ++ R)) : Contents top s R := by
  induction hx with
  | nil s => simpa using hc
  | pad s f p body rest items h1 h2 _ ih =>
    refine ih ?_
    obtain ⟨fld, g1, g2⟩ := padField_field h1
    obtain ⟨x, xs, hp, g3, g4⟩ := framed_head h2
    have hc' : Contents top s (f ++ x :: (xs ++ (rest ++ R))) := by rw [hp] at hc; simpa using hc
    rcases octet_cases g1 hc' with ⟨-, -, p', body', rest', k1, k2, k3⟩ | ⟨k1, -⟩ | ⟨k1, -⟩ | ⟨-, k1, -⟩
    · have e1 := framed_extent (t := 0) (by simp) (by simp) (by simp) (by simp) h2 (rest ++ R)
      have e2 := framed_extent (t := 0) (by simp) (by simp) (by simp) (by simp) k2 rest'
      have hk : p ++ (rest ++ R) = p' ++ rest' := by rw [← k1, hp]; simp
      rw [hk, e2] at e1
      obtain ⟨-, h4⟩ := List.append_inj hk (by simpa using e1.symm)
      rw [h4]; exact k3
    · omega
    · omega
    · rw [k1] at g3; simp at g3
  | scalar s f inner v rest field ann x items h1 h2 h3 _ ih =>
    refine ih ?_
    obtain ⟨y, ys, hy, -, g1, g2⟩ := plain_head (scalar_plain h2)
    exact (value_cases h1 hy g2 g1 (plain_extent (scalar_plain h2)) h3 (by simpa using hc)).2
  | cont s f body inner v rest field ann ty ch items o h1 h2 _ h4 h5 _ _ ih2 =>
    refine ih2 ?_
    obtain ⟨y, ys, hy, -, g1, g2⟩ := container_head h4
    exact (value_cases h1 hy g2 g1 (container_extent' (wellFramed_one (items_wellFramed h2)) h4) h5 (by simpa using hc)).2

theorem framed_unique {t t' : Nat} {bs body body' : Bytes} (h : Framed t bs body) (h' : Framed t' bs body') : t = t' ∧ body = body' := by
  cases h with
  | short x _ h1 h2 =>
    cases h' with
    | short _ _ h3 h4 => exact ⟨by omega, rfl⟩
    | long _ len _ h3 h4 => omega
  | long x len _ h1 h2 =>
    generalize hb : x :: (len ++ body) = b at h'
    cases h' with
    | short y _ h3 h4 =>
      simp only [List.cons.injEq] at hb
      obtain ⟨rfl, rfl⟩ := hb
      omega
    | long y len' _ h3 h4 =>
      simp only [List.cons.injEq] at hb
      obtain ⟨rfl, hb⟩ := hb
      obtain ⟨-, h5⟩ := delimited_unique h2.1 h4.1 hb
      exact ⟨by omega, h5⟩

theorem container_unique {ty ty' : CType} {o o' : Bool} {bs body body' : Bytes} (h : FramedContainer ty o bs body)
    (h' : FramedContainer ty' o' bs body') (h1 : ty = .struct → body.length ≠ 1) (h1' : ty' = .struct → body'.length ≠ 1) : ty = ty' ∧ body = body' := by
  have ord : ∀ {len body b2 : Bytes} {t : Nat}, t = 11 ∨ t = 12 ∨ t = 13 → (t = 13 → b2.length ≠ 1) → Framed t (0xD1 :: (len ++ body)) b2 → False := by
    intro len body b2 t ht h1 hf
    generalize hb : (0xD1 : UInt8) :: (len ++ body) = b at hf
    cases hf with
    | short x _ h3 h4 =>
      simp only [List.cons.injEq] at hb
      rw [← hb.1] at h4
      have : (0xD1 : UInt8).toNat = 209 := rfl
      omega
    | long x l _ h3 h4 =>
      simp only [List.cons.injEq] at hb
      rw [← hb.1] at h3
      have : (0xD1 : UInt8).toNat = 209 := rfl
      omega
  cases h with
  | list _ _ _ hf =>
    cases h' with
    | list _ _ _ hf' => exact ⟨rfl, (framed_unique hf hf').2⟩
    | sexp _ _ _ hf' => exact absurd (framed_unique hf hf').1 (by simp)
    | struct _ _ _ hf' => exact absurd (framed_unique hf hf').1 (by simp)
    | ordered len _ h2 h3 => exact (ord (t := 11) (by simp) (by simp) hf).elim
  | sexp _ _ _ hf =>
    cases h' with
    | list _ _ _ hf' => exact absurd (framed_unique hf hf').1 (by simp)
    | sexp _ _ _ hf' => exact ⟨rfl, (framed_unique hf hf').2⟩
    | struct _ _ _ hf' => exact absurd (framed_unique hf hf').1 (by simp)
    | ordered len _ h2 h3 => exact (ord (t := 12) (by simp) (by simp) hf).elim
  | struct _ _ _ hf =>
    cases h' with
    | list _ _ _ hf' => exact absurd (framed_unique hf hf').1 (by simp)
    | sexp _ _ _ hf' => exact absurd (framed_unique hf hf').1 (by simp)
    | struct _ _ _ hf' => exact ⟨rfl, (framed_unique hf hf').2⟩
    | ordered len _ h2 h3 => exact (ord (t := 13) (by simp) (fun _ => h1 rfl) hf).elim
  | ordered len _ h2 h3 =>
    generalize hb : (0xD1 : UInt8) :: (len ++ body) = b at h'
    cases h' with
    | list _ _ _ hf' => subst hb; exact (ord (t := 11) (by simp) (by simp) hf').elim
    | sexp _ _ _ hf' => subst hb; exact (ord (t := 12) (by simp) (by simp) hf').elim
    | struct _ _ _ hf' => subst hb; exact (ord (t := 13) (by simp) (fun _ => h1' rfl) hf').elim
    | ordered len' _ h4 h5 =>
      simp only [List.cons.injEq, true_and] at hb
      exact ⟨rfl, (delimited_unique h3.1 h5.1 hb).2⟩

/-- **A defect is not well framed.** -/
theorem defect_contents {top s : Bool} {b : Bytes} (h : Defect top s b) : ¬ Contents top s b := by
  have e0 : (0xE0 : UInt8).toNat = 224 := rfl
  induction h with
  | octet top s f field h r hf hl hne =>
    intro hc
    rcases octet_cases hf hc with ⟨g1, -⟩ | ⟨-, -, g1, -⟩ | ⟨-, g1, -⟩ | ⟨-, g1, -⟩
    · exact hl (.inl (by omega))
    · exact hl g1
    · exact hl g1
    · exact hne g1
  | marker s f field r hf =>
    intro hc
    rcases octet_cases hf hc with ⟨g1, -⟩ | ⟨-, g1, -⟩ | ⟨g1, -⟩ | ⟨g1, -⟩
    · omega
    · omega
    · omega
    · simp at g1
  | badMarker r hr =>
    intro hc
    rcases octet_cases (f := []) (field := none) .none hc with ⟨g1, -⟩ | ⟨-, g1, -⟩ | ⟨g1, -⟩ | ⟨-, -, rest, g1, -⟩
    · omega
    · omega
    · omega
    · exact hr rest g1
  | overrun top s f field h r k hf hlt he hk =>
    intro hc
    rcases octet_cases hf hc with ⟨-, -, p, body, rest, g1, g2, -⟩ | ⟨-, -, -, inner, rest, g1, g2, -⟩ | ⟨g1, -⟩ | ⟨-, g1, -⟩
    · rw [g1, framed_extent (t := 0) (by simp) (by simp) (by simp) (by simp) g2] at he
      rw [g1] at hk
      simp at he hk; omega
    · rw [g1, g2.extent] at he
      rw [g1] at hk
      simp at he hk; omega
    · omega
    · rw [g1] at hlt; omega
  | nested top s f field w h r hf hw h14 hne =>
    intro hc
    obtain ⟨n, head, len, sids, ann, g1, g2, g3, g4, rfl⟩ := hw
    obtain ⟨y, ys, hy, k1, k2⟩ := wrapperHeader_head g1
    have hc' : Contents top s (f ++ y :: (ys ++ (len ++ (sids ++ h :: r)))) := by rw [hy] at hc; simpa using hc
    rcases octet_cases hf hc' with ⟨g1, -⟩ | ⟨-, g1, -⟩ | ⟨-, -, n', head', len', sids', ann', h', r', m1, m2, m3, m4, m5, m6⟩ | ⟨-, g1, -⟩
    · omega
    · omega
    · have hu : head ++ (len ++ (sids ++ h :: r)) = head' ++ (len' ++ (sids' ++ h' :: r')) := by rw [← m5, hy]; simp
      obtain ⟨-, -, -, -, hr⟩ := wrapperStart_unique g1 m1 g2 m2 hu
      simp only [List.cons.injEq] at hr
      obtain ⟨rfl, rfl⟩ := hr
      rcases m6 with ⟨i2, rest, p1, p2, p3, p4⟩ | p1 | ⟨-, p1⟩
      · obtain ⟨x, xs, rfl, q1, q2, q3⟩ := p3.head
        simp only [List.cons_append, List.cons.injEq] at p1
        rw [← p1.1] at q2; omega
      · omega
      · exact hne p1
    · rw [g1] at k2; omega
  | mismatch top s f field n head len sids ann h r k hf hhead hlen hsids hann hlo hhi he hn =>
    intro hc
    obtain ⟨y, ys, hy, k1, k2⟩ := wrapperHeader_head hhead
    have hc' : Contents top s (f ++ y :: (ys ++ (len ++ (sids ++ h :: r)))) := by rw [hy] at hc; simpa using hc
    rcases octet_cases hf hc' with ⟨g1, -⟩ | ⟨-, g1, -⟩ | ⟨-, -, n', head', len', sids', ann', h', r', m1, m2, m3, m4, m5, m6⟩ | ⟨-, g1, -⟩
    · omega
    · omega
    · have hu : head ++ (len ++ (sids ++ h :: r)) = head' ++ (len' ++ (sids' ++ h' :: r')) := by rw [← m5, hy]; simp
      obtain ⟨-, hnn, hll, hss, hr⟩ := wrapperStart_unique hhead m1 hlen m2 hu
      subst hnn hll hss
      simp only [List.cons.injEq] at hr
      obtain ⟨rfl, rfl⟩ := hr
      rcases m6 with ⟨i2, rest, p1, p2, p3, p4⟩ | p1 | ⟨-, p1⟩
      · rw [p1, p3.extent] at he
        simp at he; omega
      · omega
      · rw [p1] at hhi; omega
    · rw [g1] at k2; omega
  | namedPad f n h r hf hn hlt =>
    intro hc
    rcases octet_cases (field := some n) (.some f n hf) hc with ⟨-, g1, -⟩ | ⟨g1, -⟩ | ⟨g1, -⟩ | ⟨g1, -⟩
    · exact hn (by simpa using g1)
    · omega
    · omega
    · simp at g1
  | later top s x rest items hx _ ih => exact fun hc => ih (contents_drop hx hc)
  | afterMarker rest _ ih =>
    intro hc
    rcases octet_cases (f := []) (field := none) .none hc with ⟨g1, -⟩ | ⟨-, g1, -⟩ | ⟨g1, -⟩ | ⟨-, -, rest', g1, g2⟩
    · omega
    · omega
    · omega
    · have : rest = rest' := by simpa using g1
      exact ih (by rw [this]; exact g2)
  | shortOrdered top s f len field n r hf hlen hn =>
    intro hc
    have d1 : (0xD1 : UInt8).toNat = 209 := rfl
    rcases octet_cases hf hc with ⟨g1, -⟩ | ⟨-, -, -, inner, rest, g1, g2, -⟩ | ⟨g1, -⟩ | ⟨-, g1, -⟩
    · omega
    · rcases g2 with g2 | ⟨ty, body, g2, g3⟩
      · cases g2 with
        | null h q1 q2 =>
          simp only [List.cons_append, List.cons.injEq] at g1
          rw [← g1.1] at q1; omega
        | bool b => cases b <;> simp at g1
        | float0 => simp at g1
        | float4 => simp at g1
        | float8 => simp at g1
        | body tid _ body ht hfr =>
          obtain ⟨x, xs, rfl, k1, -⟩ := framed_head hfr
          simp only [List.cons_append, List.cons.injEq] at g1
          rw [← g1.1] at k1; omega
      · have hone := wellFramed_one g2
        have fr : ∀ {t : Nat}, t = 11 ∨ t = 12 ∨ t = 13 → (t = 13 → body.length ≠ 1) → Framed t inner body → False := by
          intro t ht h1 hfr
          cases hfr with
          | short x _ h3 h4 =>
            simp only [List.cons_append, List.cons.injEq] at g1
            rw [← g1.1] at h4
            omega
          | long x l _ h3 h4 =>
            simp only [List.cons_append, List.cons.injEq] at g1
            rw [← g1.1] at h3
            omega
        cases g3 with
        | list _ _ _ hfr => exact fr (t := 11) (by simp) (by simp) hfr
        | sexp _ _ _ hfr => exact fr (t := 12) (by simp) (by simp) hfr
        | struct _ _ _ hfr => exact fr (t := 13) (by simp) (fun _ => hone rfl) hfr
        | ordered len' _ h4 h5 =>
          simp only [List.cons_append, List.cons.injEq, true_and, List.append_assoc] at g1
          obtain ⟨rfl, -⟩ := delimited_unique hlen.1 h5.1 g1
          have : n = body.length := by rw [← hlen.2, ← h5.2]
          have h6 := List.length_pos_iff.2 h4
          exact hone rfl (by omega)
    · omega
    · cases g1
  | inside top s f body inner v rest field ann ty ordered hf _ hfr h1 hw ih =>
    intro hc
    obtain ⟨y, ys, hy, -, g1, g2⟩ := container_head hfr
    obtain ⟨hi, -⟩ := value_cases hf hy g2 g1 (container_extent' h1 hfr) hw hc
    rcases hi with hi | ⟨ty', body', k1, k2⟩
    · -- a container octet does not start a scalar
      have hcon : ∃ t xs', (t = 11 ∨ t = 12 ∨ t = 13) ∧ inner = y :: xs' ∧ y.toNat / 16 = t ∧ y.toNat % 16 ≤ 14 := by
        have main : ∀ {t : Nat}, t = 11 ∨ t = 12 ∨ t = 13 → Framed t inner body → ∃ t xs', (t = 11 ∨ t = 12 ∨ t = 13) ∧ inner = y :: xs' ∧ y.toNat / 16 = t ∧ y.toNat % 16 ≤ 14 := by
          intro t ht hf
          obtain ⟨x, xs, hx, m1, m2⟩ := framed_head hf
          rw [hy] at hx
          simp only [List.cons.injEq] at hx
          exact ⟨t, ys, ht, hy, by rw [hx.1]; exact m1, by rw [hx.1]; exact m2⟩
        cases hfr with
        | list _ _ _ hf => exact main (by simp) hf
        | sexp _ _ _ hf => exact main (by simp) hf
        | struct _ _ _ hf => exact main (by simp) hf
        | ordered len body _ _ =>
          simp only [List.cons.injEq] at hy
          exact ⟨13, ys, by simp, by rw [← hy.1, ← hy.2], by rw [← hy.1]; rfl, by rw [← hy.1]; decide⟩
      obtain ⟨t, xs', ht, hx, m1, m2⟩ := hcon
      cases hi with
      | null h q1 q2 => simp only [List.cons.injEq] at hx; rw [hx.1] at q1; omega
      | bool b =>
        simp only [List.cons.injEq] at hx
        have : y.toNat ≤ 0x11 := by rw [← hx.1]; cases b <;> decide
        omega
      | float0 => simp only [List.cons.injEq] at hx; rw [← hx.1] at m1; simp at m1; omega
      | float4 => simp only [List.cons.injEq] at hx; rw [← hx.1] at m1; simp at m1; omega
      | float8 => simp only [List.cons.injEq] at hx; rw [← hx.1] at m1; simp at m1; omega
      | body tid _ b2 ht2 hf2 =>
        obtain ⟨x, xs, hx2, q1, -⟩ := framed_head hf2
        rw [hx] at hx2
        simp only [List.cons.injEq] at hx2
        rw [← hx2.1] at q1; omega
    · obtain ⟨rfl, rfl⟩ := container_unique hfr k2 h1 (wellFramed_one k1)
      exact ih (by simpa [Contents] using k1)

end Ion.Spec

namespace Ion.RawReader
open Ion Ion.Spec Ion.Fields.Spec

/-- **C42, the defects.**  A document whose first segment (after its version marker) has one of the defects listed in
`FramingSpec.lean` — an illegal type octet, a version marker below the top level, a value longer than its container, a
wrapper that does not fit its value, an annotated annotation, padding with a field name, an ordered struct without room
for a field, after any number of correct values and at any depth — is read through `blocking_reader` as events and then an
exception, however it is cut into chunks. -/
theorem C42_defects_raise (rest : Bytes) (hd : Defect true false rest) (cs : List Bytes)
    (hc : Chunks cs ([0xE0, 0x01, 0x00, 0xEA] ++ rest)) (m : Nat) (hm : 2 * ([0xE0, 0x01, 0x00, 0xEA] ++ rest).length + 1 < m) :
    ∃ (es : List IonEvent) (err : PyErr), Blocking.rawRun cs (List.replicate m .next) = es.map .ok ++ [.error err] ∧
      ∀ e ∈ es, e.eventType ≠ .streamEnd ∧ e.eventType ≠ .incomplete := by
  refine C42_malformed_raises _ ?_ cs hc m hm
  rintro (h | ⟨rest', h, hw⟩)
  · simp at h
  · have : rest = rest' := List.append_cancel_left h
    subst this
    exact defect_contents hd (by simpa [Contents] using hw)

/-- **C42, the version marker.**  A non-empty document that does not start with the version marker is refused. -/
theorem C42_no_marker_raises (doc : Bytes) (hne : doc ≠ []) (hd : ∀ rest, doc ≠ [0xE0, 0x01, 0x00, 0xEA] ++ rest) (cs : List Bytes)
    (hc : Chunks cs doc) (m : Nat) (hm : 2 * doc.length + 1 < m) :
    ∃ (es : List IonEvent) (err : PyErr), Blocking.rawRun cs (List.replicate m .next) = es.map .ok ++ [.error err] ∧
      ∀ e ∈ es, e.eventType ≠ .streamEnd ∧ e.eventType ≠ .incomplete := by
  refine C42_malformed_raises _ ?_ cs hc m hm
  rintro (h | ⟨rest', h, hw⟩)
  · exact hne h
  · exact hd _ h

/-- **C42, the other direction.**  Nothing is refused by the notion of a well-framed document that Ion allows: every correct
document is well framed, and so the two theorems above do not hold for a trivial reason. -/
theorem C42_correct_is_well_framed (doc : Bytes) (segs : List (List (Spec.Node Nat))) (h : IsStream doc segs) : WellFramedDoc doc :=
  (stream_wellFramed h).1

/-! ### Each defect occurs -/

private theorem small4 : IsVarUInt [0x84] 4 := ⟨.last _ (by decide), by decide⟩

/-- an illegal type octet, at any depth -/
example : Defect true false [0xB2, 0xB1, 0x12] := by
  have h1 : Defect false false ([] ++ 0x12 :: []) := .octet false false [] none 0x12 [] .none (by unfold LegalOctet; decide) (by decide)
  have h2 : Defect false false ([] ++ ([0xB1, 0x12] ++ [])) :=
    .inside false false [] [0x12] _ _ [] none [] .list true .none h1 (.list _ _ _ (.short 0xB1 _ (by decide) rfl)) (by simp) (.bare _)
  exact .inside true false [] [0xB1, 0x12] _ _ [] none [] .list true .none h2 (.list _ _ _ (.short 0xB2 _ (by decide) rfl)) (by simp) (.bare _)

/-- a version marker inside a list -/
example : Defect true false [0xB4, 0xE0, 0x01, 0x00, 0xEA] :=
  .inside true false [] [0xE0, 0x01, 0x00, 0xEA] _ _ [] none [] .list true .none (.marker false [] none _ .none)
    (.list _ _ _ (.short 0xB4 _ (by decide) rfl)) (by simp) (.bare _)

/-- a value that is longer than its list -/
example : Defect true false [0xB2, 0x22, 0x05, 0x07] :=
  .inside true false [] [0x22, 0x05] _ _ [0x07] none [] .list true .none (.overrun false false [] none 0x22 [0x05] 3 .none (by decide) (by decide) (by decide))
    (.list _ _ _ (.short 0xB2 _ (by decide) rfl)) (by simp) (.bare _)

/-- NOP padding with a field name -/
example : Defect true false [0xD2, 0x84, 0x00] :=
  .inside true false [] [0x84, 0x00] _ _ [] none [] .struct true .none (.namedPad [0x84] 4 0x00 [] small4 (by decide) (by decide))
    (.struct _ _ _ (.short 0xD2 _ (by decide) rfl)) (by simp) (.bare _)

/-- **C42, the limits.**  Two things that are not Ion are accepted, and the theorems above say so (`annotatedPad` and
`annotatedMarker` in `FramingSpec.lean`): NOP padding as the value of an annotation wrapper, even if the wrapper announces
another length, and an annotated version marker. -/
theorem C42_annotated_padding :
    nexts [[0xE0, 0x01, 0x00, 0xEA, 0xE9, 0x81, 0x84, 0x00]] 2
      = [.ok { eventType := .versionMarker, depth := some 0 }, .ok { eventType := .streamEnd }] ∧
    (nexts [[0xE0, 0x01, 0x00, 0xEA, 0xE6, 0x81, 0x84, 0xE0, 0x01, 0x00, 0xEA]] 3).map (·.toOption.map (·.eventType))
      = [some .versionMarker, some .versionMarker, some .streamEnd] := by
  decide +kernel

end Ion.RawReader
