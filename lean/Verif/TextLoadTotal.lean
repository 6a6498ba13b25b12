import Verif.TextTotal
import Verif.SimpleText
import Verif.LoadTotal
set_option linter.unusedSimpArgs false
/-!
# Loading text comes to an end, or waits at the end of the data for ever

Every event takes something from a potential (`advance_pot`), so that only the end of the data remains: there the blocking reader repeats
`NEXT` as long as the answer is `INCOMPLETE`.
-/
namespace Ion.TextReader
open Ion Ion.Queue

/-! ## The potential -/

/-- The bound on the steps of an action grows with what is appended to the queue. -/
def Pot (n : Nat) (a : Act) (l : List Nat) : Prop := ∀ ext, Below (n + 16 * ext.length) a (l ++ ext)

theorem Pot.mono {n m : Nat} {a : Act} {l : List Nat} (h : Pot n a l) (hm : n ≤ m) : Pot m a l := fun ext => (h ext).mono (by omega)

theorem pot_next {F : FloatText} {s : St} {l : List Nat} : Pot (bound s l) (next F s) l := by
  intro ext
  have h := below_next (F := F) (s := s) (l := l ++ ext)
  have : bound s (l ++ ext) = bound s l + 16 * ext.length := by simp only [bound, List.length_append]; omega
  rwa [this] at h

theorem pot_data {n : Nat} {a : Act} {l d : List Nat} (h : Pot n a l) : Pot (n + 16 * d.length) a (l ++ d) := by
  intro ext
  have := h (d ++ ext)
  rw [← List.append_assoc] at this
  rw [List.length_append] at this
  exact this.mono (by omega)

/-- The read character is taken to the head of the loop. -/
def ToHead (k : Nat → Act) : Prop := ∃ g : Nat → St, (∀ c, (g c).pc = .head (some c)) ∧ k = fun c => .go (g c)
/-- The read character is sent to a handler. -/
def ToChar (F : FloatText) (k : Nat → Act) : Prop := ∃ s x h, k = fun c => onChar F s x h (some { code := c })

theorem pot_toHead {b1 b2 : Bool} {k : Nat → Act} (h : ToHead k) : Pot 0 (.read b1 b2 k) [] := by
  obtain ⟨g, -, rfl⟩ := h
  intro ext
  exact below_read (by simp)

/-- Where a read may be flushed, the character goes to the head of the loop or to a handler. -/
def Forms (F : FloatText) : Act → Prop
  | .err _ | .emit _ _ | .go _ => True
  | .read _ f k => (f = true → ToHead k ∨ ToChar F k) ∧ ∀ c, Forms F (k c)
  | .unread _ a => Forms F a
  | .wait a => ∃ b1 b2 k, a = .read b1 b2 k ∧ ToHead k

variable {F : FloatText}

theorem forms_head {b f : Bool} {g : Nat → St} (h : ∀ c, (g c).pc = .head (some c)) : Forms F (.read b f fun c => .go (g c)) :=
  ⟨fun _ => .inl ⟨g, h, rfl⟩, fun _ => trivial⟩

theorem forms_onSelf {s : St} {x : Ctx} {c : Nat} : Forms F (onSelf s x c) := by
  unfold onSelf
  try dsimp only
  split
  · split
    · trivial
    · exact forms_head fun _ => rfl
  · split
    · split
      · trivial
      · exact forms_head fun _ => rfl
    · exact forms_head fun _ => rfl

theorem forms_onRes {s : St} {x : Ctx} {c : Option Nat} {r : Res} : Forms F (onRes s x c r) := by
  unfold onRes
  cases r with
  | imm h => trivial
  | self => exact forms_onSelf
  | event e =>
    try dsimp only
    split
    · trivial
    · split <;> trivial
  | composite e n nx => trivial

theorem forms_onChar {s : St} {x : Ctx} {h : H} {c : Option Ch} : Forms F (onChar F s x h c) := by
  unfold onChar
  split
  · trivial
  · try dsimp only
    split
    · exact forms_onRes
    · exact forms_onRes

theorem forms_plain {b : Bool} {k : Nat → Act} (h : ∀ c, Forms F (k c)) : Forms F (.read b false k) := ⟨by rintro ⟨⟩, h⟩

theorem forms_readHex {k : Nat → Act} (hk : ∀ a, Forms F (k a)) : ∀ {n acc : Nat}, Forms F (readHex n acc k) := by
  intro n
  induction n with
  | zero => intro acc; exact hk acc
  | succ n ih =>
    intro acc
    refine forms_plain fun c => ?_
    try dsimp only
    split
    · exact ih
    · trivial

theorem forms_newline {c : Nat} {b : Bool} {k : Ch → Act} (hk : ∀ c, Forms F (k c)) : Forms F (newline c b k) := by
  unfold newline
  split
  · refine forms_plain fun c' => ?_
    try dsimp only
    split
    · exact hk _
    · split
      · trivial
      · exact hk _
  · exact hk _

theorem forms_decoded {cp : Nat} {b : Bool} {s : St} {k : Ch → Act} (hk : ∀ c, Forms F (k c)) : Forms F (decoded cp b s k) := by
  unfold decoded lowEscape
  split
  · trivial
  · split
    · trivial
    · split
      · refine forms_plain fun c => ?_
        try dsimp only
        split
        · refine forms_plain fun c => ?_
          try dsimp only
          split
          · split
            · trivial
            · refine forms_readHex fun a => ?_
              try dsimp only
              split
              · exact hk _
              · trivial
          · trivial
        · split <;> trivial
      · exact hk _

theorem forms_codePoint {b : Bool} {s : St} {k : Ch → Act} (hk : ∀ c, Forms F (k c)) : Forms F (codePoint b s k) := by
  unfold codePoint
  refine forms_plain fun c => ?_
  try dsimp only
  split
  · trivial
  · split
    · refine forms_plain fun c => ?_
      try dsimp only
      split
      · exact hk _
      · trivial
    · split
      · unfold escapeSeq
        refine forms_plain fun c => ?_
        try dsimp only
        split
        · exact forms_readHex fun _ => forms_decoded hk
        · split
          · exact forms_readHex fun _ => forms_decoded hk
          · split
            · exact forms_readHex fun _ => forms_decoded hk
            · split
              · exact hk _
              · split
                · exact forms_newline hk
                · trivial
      · exact forms_newline hk

theorem forms_onToken {s : St} {h : H} {q : Bool} : Forms F (onToken F s h q) := by
  unfold onToken
  try dsimp only
  split
  · exact forms_onChar
  · exact forms_onChar
  · split
    · exact forms_codePoint fun _ => forms_onChar
    · exact ⟨fun _ => .inr ⟨_, _, _, rfl⟩, fun _ => forms_onChar⟩

theorem forms_onClose {s : St} {c : Nat} : Forms F (onClose s c) := by
  unfold onClose
  split
  · split
    · trivial
    · split <;> trivial
  · split
    · split
      · trivial
      · exact forms_head fun _ => rfl
    · exact ⟨_, _, _, rfl, _, fun _ => rfl, rfl⟩

theorem forms_onStart {s : St} {c : Nat} : Forms F (onStart s c) := by
  unfold onStart
  try dsimp only
  split
  · split
    · split
      · trivial
      · split
        · trivial
        · split <;> trivial
    · trivial
  · split
    · trivial
    · split
      · split
        · split
          · split <;> trivial
          · refine forms_plain fun c => ?_
            try dsimp only
            split
            · split <;> trivial
            · trivial
        · split
          · trivial
          · split <;> trivial
      · split <;> trivial

theorem forms_next {s : St} : Forms F (next F s) := by
  unfold next
  split
  · unfold onHead
    split
    · exact forms_head fun _ => rfl
    · split
      · split
        · split
          · trivial
          · split
            · trivial
            · split <;> trivial
        · exact forms_onClose
      · split
        · exact forms_head fun _ => rfl
        · exact forms_onStart
  · exact forms_onToken
  · try dsimp only
    split
    · refine forms_plain fun c => ?_
      split <;> trivial
    · split <;> trivial
  · trivial
  · exact forms_plain fun c => trivial
  · refine forms_plain fun c => ?_
    try dsimp only
    split <;> trivial

/-- What an outcome leaves. -/
def OutPot (F : FloatText) (n : Nat) : Outcome → Prop
  | .event _ s q => ∃ l k, Has q l k ∧ bound s l < n
  | .block b f k q => (∃ j, Has q [] j) ∧ Pot n (.read b f k) [] ∧ Forms F (.read b f k)
  | .waiting a q => (∃ j, Has q [] j) ∧ ∃ b1 b2 k, a = .read b1 b2 k ∧ ToHead k
  | .error _ => True

theorem OutPot.mono {n m : Nat} {o : Outcome} (h : OutPot F n o) (hm : n ≤ m) : OutPot F m o := by
  cases o with
  | event e s q =>
    obtain ⟨l, k, h1, h2⟩ := h
    exact ⟨l, k, h1, by omega⟩
  | block b f k q => exact ⟨h.1, h.2.1.mono hm, h.2.2⟩
  | waiting a q => exact h
  | error e => trivial

theorem advance_pot {a : Act} {q : BufferQueue Nat} {l : List Nat} {k n : Nat} {o : Outcome} (hq : Has q l k) (ha : Pot n a l) (hf : Forms F a) (h : advance F a q = some o) : OutPot F n o := by
  refine advance.partial_correctness F (fun a q o => ∀ l k n, Has q l k → Pot n a l → Forms F a → OutPot F n o) ?_ a q o h l k n hq ha hf
  intro adv ih a q o h l k n hq ha hf
  cases a with
  | err e => cases h; trivial
  | emit e s =>
    cases h
    have := ha []
    simp only [List.append_nil, List.length_nil, Nat.mul_zero, Nat.add_zero, Below] at this
    exact ⟨l, k, hq, this⟩
  | read b f kk =>
    dsimp only at h
    have hsize := hq.size
    cases l with
    | nil =>
      rw [if_pos (by simpa using hsize)] at h
      cases h
      exact ⟨⟨k, hq⟩, ha, hf⟩
    | cons c l =>
      rw [if_neg (by rw [hsize, List.length_cons]; omega)] at h
      obtain ⟨q', h1, h2⟩ := hq.read
      rw [h1] at h
      exact ih _ _ _ h l _ n h2 (fun ext => ha ext c (l ++ ext) rfl) (hf.2 c)
  | unread c a =>
    dsimp only at h
    cases hu : q.unread c with
    | mk r q' =>
      rw [hu] at h
      cases r with
      | error e => cases h; trivial
      | ok _ => exact ih _ _ _ h (c :: l) _ n (hq.unread_ok hu) ha hf
  | wait a =>
    dsimp only at h
    split at h
    · cases h
      rename_i hz
      have : l = [] := by
        have := hq.size
        cases l with
        | nil => rfl
        | cons _ _ => simp [hz] at this; omega
      subst this
      exact ⟨⟨k, hq⟩, hf⟩
    · cases h; trivial
  | go s =>
    have hb := ha []
    simp only [List.append_nil, List.length_nil, Nat.mul_zero, Nat.add_zero, Below] at hb
    exact (ih _ _ _ h l k (bound s l) hq pot_next forms_next).mono (by omega)

theorem advance_go {s : St} {q : BufferQueue Nat} : advance F (.go s) q = advance F (next F s) q := by rw [advance.eq_def]

/-! ## Answers -/

/-- The reader has delivered an event of the text. -/
def Paused : Status → Prop
  | .paused _ _ _ _ => True
  | _ => False

/-- The reader needs data. -/
def Waits : Status → Prop
  | .blocked _ _ _ _ _ _ | .waiting _ _ _ _ => True
  | _ => False

/-- A request for data, or the end of the stream. -/
def Signal (e : IonEvent) : Prop := e.eventType.isStreamSignal = true ∧ e.depth = none

/-- What is known of an answer, for a potential `V`; `Q` is about the state in which `INCOMPLETE` was answered. -/
def PotAns (V : Nat → Status → Prop) (n : Nat) (Q : Bool → (Nat → Act) → Prop) (r : Except PyErr IonEvent × Status) : Prop :=
  match r.1 with
  | .error _ => True
  | .ok e => (Paused r.2 ∧ ∃ m, m < n ∧ V m r.2) ∨
      (V n r.2 ∧ Signal e ∧ Waits r.2 ∧ (e.eventType = .incomplete → ∃ f k q d sk, r.2 = .blocked false f k q d sk ∧ Q f k))

/-- The potential of the state of the reader, while there may be more data. -/
def SPot (F : FloatText) (n : Nat) : Status → Prop
  | .fresh => True
  | .paused _ s q _ => ∃ l k, Has q l k ∧ bound s l ≤ n
  | .blocked b f k q _ _ => (∃ j, Has q [] j) ∧ Pot n (.read b f k) [] ∧ Forms F (.read b f k)
  | .waiting a q _ _ => (∃ j, Has q [] j) ∧ ∃ b1 b2 k, a = .read b1 b2 k ∧ ToHead k
  | .dead => True

theorem SPot.mono {n m : Nat} {st : Status} (h : SPot F n st) (hm : n ≤ m) : SPot F m st := by
  cases st with
  | fresh => trivial
  | paused e s q d => obtain ⟨l, k, h1, h2⟩ := h; exact ⟨l, k, h1, by omega⟩
  | blocked b f k q d sk => exact ⟨h.1, h.2.1.mono hm, h.2.2⟩
  | waiting a q d sk => exact h
  | dead => trivial

theorem PotAns.mono {V : Nat → Status → Prop} (hV : ∀ {n m st}, V n st → n ≤ m → V m st) {Q : Bool → (Nat → Act) → Prop} {n m : Nat} {r : Except PyErr IonEvent × Status} (h : PotAns V n Q r) (hm : n ≤ m) : PotAns V m Q r := by
  obtain ⟨r, st⟩ := r
  cases r with
  | error e => trivial
  | ok e =>
    rcases h with ⟨h1, i, h2, h3⟩ | ⟨h1, h2⟩
    · exact .inl ⟨h1, i, by omega, h3⟩
    · exact .inr ⟨hV h1 hm, h2⟩

theorem deliver_pot {depth : Int} {skipping : Bool} {a : Act} {q : BufferQueue Nat} {n : Nat} {r : Except PyErr IonEvent × Status}
    (ha : ∀ o, advance F a q = some o → OutPot F n o) (h : deliver F depth skipping a q = some r) : PotAns (SPot F) n (fun _ _ => True) r := by
  refine deliver.partial_correctness F depth (fun skipping a q r => ∀ n, (∀ o, advance F a q = some o → OutPot F n o) → PotAns (SPot F) n (fun _ _ => True) r) ?_ skipping a q r h n ha
  intro del ih skipping a q r h n ha
  cases ho : advance F a q with
  | none => rw [ho] at h; cases h
  | some o =>
    rw [ho] at h
    have h1 := ha o ho
    simp only [Option.bind_eq_bind, Option.bind_some] at h
    cases o with
    | error e => cases h; trivial
    | block b f k q =>
      dsimp only at h
      split at h
      · cases h
      · cases h
        refine .inr ⟨h1, ?_, trivial, ?_⟩
        · cases b <;> exact ⟨rfl, rfl⟩
        · cases b
          · exact fun _ => ⟨_, _, _, _, _, rfl, trivial⟩
          · rintro ⟨⟩
    | waiting a q =>
      dsimp only at h
      split at h
      · cases h
      · cases h; exact .inr ⟨h1, ⟨rfl, rfl⟩, trivial, by rintro ⟨⟩⟩
    | event e s q =>
      obtain ⟨l, k, h2, h3⟩ := h1
      have paused : ∀ d, PotAns (SPot F) n (fun _ _ => True) (.ok e, .paused e s q d) := fun d => .inl ⟨trivial, bound s l, h3, l, k, h2, Nat.le_refl _⟩
      dsimp only at h
      split at h
      · split at h
        · cases h; exact paused _
        · refine (ih _ _ _ _ h (bound s l) fun o ho => ?_).mono SPot.mono (by omega)
          rw [advance_go] at ho
          exact advance_pot h2 pot_next forms_next ho
      · split at h
        · cases h; exact paused _
        · cases h; exact paused _

theorem orDiverge_pot {depth : Int} {skipping : Bool} {a : Act} {q : BufferQueue Nat} {n : Nat}
    (ha : ∀ o, advance F a q = some o → OutPot F n o) : PotAns (SPot F) n (fun _ _ => True) (orDiverge (deliver F depth skipping a q)) := by
  cases h : deliver F depth skipping a q with
  | none => trivial
  | some r => exact deliver_pot ha h

/-- The request carries no data. -/
def NoData (cmd : RawReader.Cmd) : Prop := ∀ d, cmd ≠ .data d

theorem send_paused_pot {units : Bytes → List Nat} {st : Status} {cmd : RawReader.Cmd} {n : Nat} (hs : SPot F n st) (hp : Paused st) (hc : NoData cmd) : PotAns (SPot F) n (fun _ _ => True) (send F units st cmd) := by
  cases st with
  | paused e s q d =>
    obtain ⟨l, k, h1, h2⟩ := hs
    have go : ∀ o, advance F (.go s) q = some o → OutPot F n o := fun o ho => by
      rw [advance_go] at ho
      exact (advance_pot h1 pot_next forms_next ho).mono h2
    cases cmd with
    | data d => exact (hc d rfl).elim
    | next => exact orDiverge_pot go
    | skip =>
      unfold send
      try dsimp only
      split
      · trivial
      · exact orDiverge_pot go
  | _ => exact hp.elim

theorem send_fresh_pot {units : Bytes → List Nat} {n : Nat} : PotAns (SPot F) n (fun _ _ => True) (send F units .fresh .next) := by
  refine orDiverge_pot fun o ho => ?_
  rw [advance_go] at ho
  exact (advance_pot has_empty pot_next forms_next ho).mono (by simp [bound, St.rank])

theorem send_data_pot {units : Bytes → List Nat} {st : Status} {d : Bytes} {n : Nat} (hs : SPot F n st) (hw : Waits st) : PotAns (SPot F) (n + 16 * (units d).length) (fun _ _ => True) (send F units st (.data d)) := by
  cases st with
  | blocked b f k q dp sk =>
    obtain ⟨⟨j, h1⟩, h2, h3⟩ := hs
    unfold send
    try dsimp only
    split
    · trivial
    · rename_i hd
      refine orDiverge_pot fun o ho => ?_
      exact advance_pot (h1.extend hd) (pot_data h2) h3 ho
  | waiting a q dp sk =>
    obtain ⟨⟨j, h1⟩, b1, b2, k, rfl, hk⟩ := hs
    unfold send
    try dsimp only
    split
    · trivial
    · rename_i hd
      refine orDiverge_pot fun o ho => ?_
      refine advance_pot (h1.extend hd) ((pot_data (pot_toHead hk)).mono (by omega)) ?_ ho
      obtain ⟨g, hg, rfl⟩ := hk
      exact forms_head hg
  | _ => exact hw.elim

/-! ## The end of the data -/

/-- States after the end of the data, when nothing is left in the queue. -/
def FinSt (s : St) : Prop :=
  match s.pc with
  | .head (some c) => c = EOF
  | .head none => s.canFlush = false
  | .afterEvent (some c) _ none => c = EOF
  | .enter _ none => True
  | .enter _ (some c) => c = EOF
  | _ => False

/-- Actions after the end of the data: nothing can be flushed. -/
def FinAct : Act → Prop
  | .err _ => True
  | .emit _ s => FinSt s
  | .read b f _ => b = true ∨ f = false
  | .unread _ _ => False
  | .wait _ => True
  | .go s => FinSt s

theorem isEnd_eof (ty : Option IonType) : isEnd ty EOF = false := by
  unfold isEnd
  split <;> rfl

theorem fin_next {s : St} (h : FinSt s) : FinAct (next F s) := by
  unfold FinSt at h
  unfold next
  split at h
  · rename_i c hp
    subst h
    rw [hp]
    unfold onHead
    dsimp only
    rw [if_pos (by simp)]
    split
    · split
      · trivial
      · split
        · trivial
        · split
          · trivial
          · exact rfl
    · unfold onClose
      rw [if_neg (by simp [isEnd_eof]), if_neg (by decide)]
      trivial
  · rename_i hp
    rw [hp]
    exact .inr h
  · rename_i c sd hp
    subst h
    rw [hp]
    dsimp only
    split
    · exact .inr rfl
    · exact rfl
  · rename_i ty hp
    rw [hp]
    exact rfl
  · rename_i ty c hp
    subst h
    rw [hp]
    exact rfl
  · exact h.elim

/-- Outcomes after the end of the data. -/
def FinOut : Outcome → Prop
  | .event _ s q => (∃ k, Has q [] k) ∧ FinSt s
  | .block b f _ _ => b = true ∨ f = false
  | .waiting _ _ => True
  | .error _ => True

theorem advance_fin {a : Act} {q : BufferQueue Nat} {k : Nat} {o : Outcome} (hq : Has q [] k) (ha : FinAct a) (h : advance F a q = some o) : FinOut o := by
  refine advance.partial_correctness F (fun a q o => ∀ k, Has q [] k → FinAct a → FinOut o) ?_ a q o h k hq ha
  intro adv ih a q o h k hq ha
  cases a with
  | err e => cases h; trivial
  | emit e s => cases h; exact ⟨⟨k, hq⟩, ha⟩
  | read b f kk =>
    dsimp only at h
    rw [if_pos (by simpa using hq.size)] at h
    cases h
    exact ha
  | unread c a => exact ha.elim
  | wait a =>
    dsimp only at h
    split at h <;> · cases h; trivial
  | go s => exact ih _ _ _ h k hq (fin_next ha)

/-- How often a handler can go on at the end of the data. -/
def H.nest : H → Nat
  | .commentBody (some h) _ _ => h.nest + 1
  | .keyword s => 5 - s.index
  | .typedNull (.leaf _ l) => l.length
  | _ => 0

/-- What a handler makes of the end of the data: an event, an exception, the end of the comment, or it goes on with a comment. -/
def EofRes (x : Ctx) (h : H) (r : Except PyErr Out) : Prop :=
  ∀ o, r = .ok o → o.unread = none ∧ (o.res = .self ∨ (∃ e, o.res = .event e) ∨ (∃ e nx, o.res = .composite e none nx) ∨
    (∃ h', o.res = .imm h' ∧ h'.nest < h.nest) ∨
    (∃ ret prev, h = .commentBody ret true prev ∧ o = { ctx := x, res := .imm (.commentBody ret true (some EOF)) }))

theorem eofRes_error {x : Ctx} {h : H} {e : PyErr} : EofRes x h (.error e) := by rintro o ⟨⟩
theorem eofRes_event {x y : Ctx} {h : H} {e : IonEvent} : EofRes x h (.ok { ctx := y, res := .event e }) := by
  rintro o ⟨⟩; exact ⟨rfl, .inr (.inl ⟨_, rfl⟩)⟩
theorem eofRes_self {x y : Ctx} {h : H} : EofRes x h (.ok { ctx := y, res := .self }) := by
  rintro o ⟨⟩; exact ⟨rfl, .inl rfl⟩
theorem eofRes_composite {x y nx : Ctx} {h : H} {e : IonEvent} : EofRes x h (.ok { ctx := y, res := .composite e none nx }) := by
  rintro o ⟨⟩; exact ⟨rfl, .inr (.inr (.inl ⟨_, _, rfl⟩))⟩

theorem endsValue_eof : endsValue EOF = true := rfl
theorem isWs_eof : isWs EOF = false := rfl
theorem isDigit_eof : isDigit EOF = false := rfl
theorem isOp_eof : isOp EOF = false := rfl
theorem isIdChar_eof : isIdChar EOF = false := rfl
theorem isIdStart_eof : isIdStart EOF = false := rfl
theorem isB64_eof : isB64 EOF = false := rfl
theorem isSymTerm_eof : isSymTerm EOF = false := rfl
theorem checkUnread_eof : checkUnread { code := EOF } = .error .typeError := rfl
theorem badQuoted_eof (b1 b2 : Bool) : badQuoted b1 b2 { code := EOF } = true := by cases b1 <;> cases b2 <;> rfl
theorem mkQuotedSymbol_eof (x : Ctx) (f : Bool) : ∃ e, mkQuotedSymbol { code := EOF } x f = .error e := by
  unfold mkQuotedSymbol
  rw [if_neg (by decide)]
  split
  · exact ⟨_, rfl⟩
  · split
    · exact ⟨_, rfl⟩
    · rw [if_pos rfl]; exact ⟨_, rfl⟩

theorem endNumber_eof {x y : Ctx} {h : H} {e : IonEvent} : EofRes x h (endNumber y { code := EOF } e) := by
  unfold endNumber
  rw [if_neg (by decide)]
  exact eofRes_event

theorem mkUnquoted_eof (v : Env) (x : Ctx) (f : Bool) : ∃ e, mkUnquoted v EOF x f = .error e := by
  unfold mkUnquoted
  split
  · exact ⟨_, rfl⟩
  · rw [if_neg (by decide), if_neg (by simp [isOp_eof])]
    exact ⟨_, rfl⟩

theorem symbolEnd_eof {v : Env} {x y : Ctx} {h : H} {f : Bool} {t : Tok} : EofRes x h (symbolEnd v EOF y f t) := by
  unfold symbolEnd
  split
  · exact eofRes_self
  · split
    · exact eofRes_error
    · exact eofRes_event

theorem notKeyword_eof {v : Env} {x y : Ctx} {h : H} {f : Bool} : EofRes x h (notKeyword v f y EOF) := by
  unfold notKeyword
  rw [if_neg (by decide), if_pos (by simp [endsValue_eof])]
  split
  · exact eofRes_error
  · exact eofRes_event

theorem checkKeyword_eof {v : Env} {k : Kw} {f : Bool} {i : Nat} {x : Ctx} {b : Bool} {r : Option Res} (h : checkKeyword v k f i x EOF = .ok (b, r)) :
    (b = false ∧ r = none) ∨ ∃ e, r = some (.event e) := by
  unfold checkKeyword at h
  split at h
  · rename_i a ha
    cases h
    refine .inl ⟨?_, rfl⟩
    have : a ≠ EOF := by
      have hm := List.mem_of_getElem? ha
      cases k <;> simp only [Kw.suffix, List.mem_cons, List.not_mem_nil, or_false] at hm <;> rintro rfl <;> simp [EOF] at hm
    simp [Ne.symm this]
  · rw [if_neg (by simp [EOF]), if_pos endsValue_eof] at h
    split at h
    · cases h
    · cases h; exact .inr ⟨_, rfl⟩

theorem checkKeyword_late {v : Env} {k : Kw} {f : Bool} {i : Nat} {x : Ctx} {b : Bool} {r : Option Res} (h : checkKeyword v k f i x EOF = .ok (b, r)) (hi : 4 ≤ i) : ∃ e, r = some (.event e) := by
  unfold checkKeyword at h
  have : k.suffix[i]? = none := by
    rw [List.getElem?_eq_none_iff]
    cases k <;> simp only [Kw.suffix, List.length_cons, List.length_nil] <;> omega
  rw [this] at h
  dsimp only at h
  rw [if_neg (by simp [EOF]), if_pos endsValue_eof] at h
  split at h
  · cases h
  · cases h; exact ⟨_, rfl⟩

theorem keywordChecks_eof {v : Env} {s s' : KwState} {x : Ctx} {tr : Option Res} (h : keywordChecks v s x EOF = .ok (s', tr)) :
    s'.index = s.index ∧ ((∃ e, tr = some (.event e)) ∨ (tr = none ∧ s.index < 4) ∨ (s'.maybeNull || s'.maybeNan || s'.maybeTrue || s'.maybeFalse) = false) := by
  have last : ∀ (t : KwState) (tr : Option Res) (k : Kw) (g : Bool → KwState), t.index = s.index → (∀ b, (g b).index = t.index) →
      ((checkKeyword v k t.isField t.index x EOF).bind fun r => .ok (g r.1, r.2)) = .ok (s', tr) → s'.index = s.index ∧ ((∃ e, tr = some (.event e)) ∨ (tr = none ∧ s.index < 4)) := by
    intro t tr k g ht hg h
    cases hr : checkKeyword v k t.isField t.index x EOF with
    | error e => rw [hr] at h; cases h
    | ok r =>
      rw [hr] at h
      simp only [Except.bind, Except.ok.injEq, Prod.mk.injEq] at h
      obtain ⟨rfl, rfl⟩ := h
      refine ⟨by rw [hg, ht], ?_⟩
      rcases Nat.lt_or_ge t.index 4 with hi | hi
      · rcases checkKeyword_eof hr with ⟨_, h2⟩ | h2
        · exact .inr ⟨h2, by omega⟩
        · exact .inl h2
      · exact .inl (checkKeyword_late hr hi)
  have rest : ∀ (t : KwState) (tr0 : Option Res), t.index = s.index → ((∃ e, tr0 = some (.event e)) ∨ (tr0 = none ∧ t.maybeNull = false)) →
      (if t.maybeNan then do
        let r ← checkKeyword v .nan t.isField t.index x EOF
        return ({ t with maybeNan := r.1 }, r.2)
      else if t.maybeTrue then do
        let r ← checkKeyword v .true_ t.isField t.index x EOF
        return ({ t with maybeTrue := r.1 }, r.2)
      else if t.maybeFalse then do
        let r ← checkKeyword v .false_ t.isField t.index x EOF
        return ({ t with maybeFalse := r.1 }, r.2)
      else return (t, tr0) : Except PyErr (KwState × Option Res)) = .ok (s', tr) →
      s'.index = s.index ∧ ((∃ e, tr = some (.event e)) ∨ (tr = none ∧ s.index < 4) ∨ (s'.maybeNull || s'.maybeNan || s'.maybeTrue || s'.maybeFalse) = false) := by
    intro t tr0 ht h0 h
    split at h
    · obtain ⟨h1, h2⟩ := last t tr .nan (fun b => { t with maybeNan := b }) ht (fun _ => rfl) h
      exact ⟨h1, h2.imp id .inl⟩
    · split at h
      · obtain ⟨h1, h2⟩ := last t tr .true_ (fun b => { t with maybeTrue := b }) ht (fun _ => rfl) h
        exact ⟨h1, h2.imp id .inl⟩
      · split at h
        · obtain ⟨h1, h2⟩ := last t tr .false_ (fun b => { t with maybeFalse := b }) ht (fun _ => rfl) h
          exact ⟨h1, h2.imp id .inl⟩
        · rename_i a1 a2 a3
          cases h
          refine ⟨ht, ?_⟩
          rcases h0 with h0 | ⟨h0, h1⟩
          · exact .inl h0
          · refine .inr (.inr ?_)
            simp only [h1, Bool.false_or, Bool.or_eq_false_iff]
            simp only [Bool.not_eq_true] at a1 a2 a3
            exact ⟨⟨a1, a2⟩, a3⟩
  unfold keywordChecks at h
  split at h
  · cases hr : checkKeyword v .null s.isField s.index x EOF with
    | error e => rw [hr] at h; cases h
    | ok r =>
      rw [hr] at h
      obtain ⟨b, tr1⟩ := r
      refine rest { s with maybeNull := b } tr1 rfl ?_ h
      rcases checkKeyword_eof hr with ⟨h1, h2⟩ | h2
      · exact .inr ⟨h2, h1⟩
      · exact .inl h2
  · rename_i hn
    simp only [Bool.not_eq_true] at hn
    exact rest s none rfl (.inr ⟨rfl, hn⟩) h

theorem notInf_eof {v : Env} {i : Nat} {x y : Ctx} {h : H} : EofRes x h (notInf v i y EOF) := by
  unfold notInf
  split
  · exact eofRes_error
  · split
    · exact eofRes_error
    · split
      · rw [if_neg (by decide)]
        split
        · exact eofRes_error
        · exact eofRes_event
      · split
        · exact eofRes_error
        · obtain ⟨e, he⟩ := mkUnquoted_eof v { value := infSuffix.take i } false
          rw [he]
          exact eofRes_error

theorem onShort_eof {v : Env} {f b : Bool} {x : Ctx} {h h' : H} : EofRes x h (onShort v f b h' x { code := EOF }) := by
  unfold onShort
  rw [if_neg (by decide), if_pos (badQuoted_eof _ _)]
  exact eofRes_error

theorem handle_eof (v : Env) (x : Ctx) (h : H) : EofRes x h (handle F v x h { code := EOF }) := by
  cases h with
  | negStart => exact eofRes_error
  | zeroStart => exact endNumber_eof
  | number => exact endNumber_eof
  | slashEnd e => exact eofRes_error
  | numeric k p =>
    show EofRes x _ (onNumeric F v k p x { code := EOF })
    unfold onNumeric
    rw [if_pos endsValue_eof]
    split
    · exact eofRes_error
    · exact endNumber_eof
  | tsZero => exact eofRes_error
  | ts s =>
    show EofRes x _ (onTs v s x { code := EOF })
    unfold onTs
    dsimp only
    cases hc : s.canTerminate with
    | false =>
      have : s.nxt.has EOF = false := by cases s.nxt <;> rfl
      simp only [this, Bool.false_and, Bool.not_false, Bool.true_and, if_true]
      exact eofRes_error
    | true =>
      simp only [Bool.true_and, decide_true, Bool.not_true, Bool.and_false, Bool.or_true, if_true, Bool.false_eq_true, if_false]
      exact endNumber_eof
  | comment ret => exact eofRes_error
  | commentBody ret block prev =>
    show EofRes x _ (onComment ret block prev x { code := EOF })
    unfold onComment
    cases block with
    | true =>
      simp only [if_true, show (EOF = 47) = False by simp [EOF], decide_false, Bool.and_false, Bool.false_eq_true, if_false]
      rintro o ⟨⟩
      exact ⟨rfl, .inr (.inr (.inr (.inr ⟨_, _, rfl, rfl⟩)))⟩
    | false =>
      simp only [Bool.false_eq_true, if_false, decide_true, Bool.or_true, if_true]
      cases ret with
      | none => exact eofRes_self
      | some h => rintro o ⟨⟩; exact ⟨rfl, .inr (.inr (.inr (.inl ⟨_, rfl, by simp [H.nest]⟩)))⟩
  | sexpSlash ret e => exact eofRes_error
  | long f cl n d first =>
    show EofRes x _ (onLong v f cl n d first x { code := EOF })
    unfold onLong
    rw [if_neg (by decide)]
    split
    · rw [if_pos (badQuoted_eof _ _)]
      exact eofRes_error
    · split
      · unfold longQuotes
        split
        · exact eofRes_error
        · split
          · exact eofRes_error
          · dsimp only
            split
            · exact eofRes_error
            · exact eofRes_composite
      · rw [if_neg (by decide)]
        unfold longAfter
        dsimp only
        split
        · unfold mkClobEnd
          rw [if_neg (by decide), if_neg (by simp [EOF])]
          exact eofRes_error
        · rw [if_neg (by decide)]
          split
          · exact eofRes_error
          · exact eofRes_event
  | longSymbol e =>
    obtain ⟨e', he⟩ := mkQuotedSymbol_eof {} false
    show EofRes x _ (match mkQuotedSymbol { code := EOF } {} false with
      | .error err => Except.error err
      | .ok (nx, h) => .ok { ctx := { x with composite := true }, res := .composite e (some h) nx })
    rw [he]
    exact eofRes_error
  | typedNull n =>
    show EofRes x _ (onTypedNull v n x { code := EOF })
    unfold onTypedNull
    split
    · rw [if_pos (by simp [endsValue_eof])]
      exact eofRes_event
    · cases n with
      | leaf ty l =>
        cases l with
        | nil => exact eofRes_error
        | cons a l =>
          dsimp only [NullNode.next]
          split
          · exact eofRes_error
          · rename_i n hn
            rintro o ⟨⟩
            split at hn
            · cases hn
              exact ⟨rfl, .inr (.inr (.inr (.inl ⟨_, rfl, by simp [H.nest]⟩)))⟩
            · cases hn
      | _ => exact eofRes_error
  | operatorStart o => exact eofRes_error
  | operatorAfter o => exact eofRes_error
  | keyword s =>
    show EofRes x _ (onKeyword v s x { code := EOF })
    unfold onKeyword
    dsimp only
    cases hk : keywordChecks v s x EOF with
    | error e => exact eofRes_error
    | ok p =>
      obtain ⟨s', tr⟩ := p
      dsimp only
      obtain ⟨h1, h2⟩ := keywordChecks_eof hk
      split
      · rename_i hm
        rcases h2 with ⟨e, rfl⟩ | ⟨rfl, h2⟩ | h2
        · exact eofRes_event
        · rintro o ⟨⟩
          exact ⟨rfl, .inr (.inr (.inr (.inl ⟨_, rfl, by simp only [H.nest, h1]; omega⟩)))⟩
        · rw [h2] at hm; cases hm
      · exact notKeyword_eof
  | inf neg i =>
    show EofRes x _ (onInf v neg i x { code := EOF })
    unfold onInf
    dsimp only
    split
    · rename_i a ha
      have : EOF ≠ a := by
        have hm := List.mem_of_getElem? ha
        simp only [infSuffix, List.mem_cons, List.not_mem_nil, or_false] at hm
        rintro rfl
        simp [EOF] at hm
      rw [if_neg this]
      exact notInf_eof
    · rw [if_pos (by simp [endsValue_eof])]
      exact eofRes_event
  | operator =>
    unfold handle
    dsimp only
    rw [if_neg (by decide)]
    split
    · exact eofRes_error
    · exact eofRes_event
  | unquoted f p =>
    show EofRes x _ (onUnquoted v f p x { code := EOF })
    unfold onUnquoted
    rw [if_neg (by decide), if_pos (by simp [endsToken, endsValue_eof])]
    exact symbolEnd_eof
  | dollar s =>
    show EofRes x _ (onDollar v s x { code := EOF })
    unfold onDollar
    rw [if_neg (by decide), if_pos (by simp [endsToken, endsValue_eof])]
    unfold dollarEnd
    split
    · exact symbolEnd_eof
    · split
      · split
        · exact eofRes_error
        · exact symbolEnd_eof
      · split <;> exact symbolEnd_eof
  | shortString => exact onShort_eof
  | shortField => exact onShort_eof
  | shortClob => exact onShort_eof
  | quotedSymbol f =>
    show EofRes x _ (onQuotedSymbol v f x { code := EOF })
    unfold onQuotedSymbol
    rw [if_neg (by decide), if_pos (badQuoted_eof _ _)]
    exact eofRes_error
  | quote1 f =>
    unfold handle
    dsimp only
    rw [if_neg (by decide)]
    split
    · exact eofRes_error
    · rename_i y _
      obtain ⟨e', he⟩ := mkQuotedSymbol_eof y f
      rw [he]
      exact eofRes_error
  | quote2 f =>
    unfold handle
    dsimp only
    rw [if_neg (by decide)]
    split
    · exact eofRes_error
    · exact eofRes_self
  | structOrLob => exact eofRes_error
  | lobStart n =>
    show EofRes x _ (onLobStart n x { code := EOF })
    unfold onLobStart
    rw [if_neg (by decide), if_neg (by decide), if_neg (by decide)]
    exact eofRes_error
  | blobEnd p d n => exact eofRes_error
  | clobEnd p => exact eofRes_error
  | containerStart ty => exact eofRes_event

/-! ## Flushing -/

/-- How often the end of the data can be sent to this continuation, at most, unless it is in a comment. -/
def Meas (F : FloatText) (j : Nat) (k : Nat → Act) : Prop := (ToHead k ∧ 1 ≤ j) ∨ ∃ s x h, k = (fun c => onChar F s x h (some { code := c })) ∧ h.nest + 2 ≤ j

theorem exists_meas {k : Nat → Act} (h : ToHead k ∨ ToChar F k) : ∃ j, Meas F j k := by
  rcases h with h | ⟨s, x, h, rfl⟩
  · exact ⟨1, .inl ⟨h, Nat.le_refl _⟩⟩
  · exact ⟨h.nest + 2, .inr ⟨s, x, h, rfl, Nat.le_refl _⟩⟩

/-- What the end of the data leads to. -/
def OutFlush (F : FloatText) (j : Nat) (o : Outcome) : Prop :=
  FinOut o ∨ ∃ b f k q, o = .block b f k q ∧ (∃ i, Has q [] i) ∧ (f = true → ∃ i, i < j ∧ Meas F i k)

/-- The reader is in a comment that is not closed: every further `NEXT` is answered with `INCOMPLETE`. -/
def Lost (F : FloatText) (st : Status) : Prop :=
  ∃ s x ret prev q d sk, st = .blocked false true (fun c => onChar F s x (.commentBody ret true prev) (some { code := c })) q d sk ∧ (∃ i, Has q [] i) ∧
    x.quoted = false ∧ ({ s with child := some x } : St).flushable = true

theorem outFlush_read {b f : Bool} {k : Nat → Act} {q : BufferQueue Nat} {o : Outcome} {j i : Nat} (hq : Has q [] i) (hk : f = true → ∃ i, i < j ∧ Meas F i k)
    (h : advance F (.read b f k) q = some o) : OutFlush F j o := by
  rw [advance.eq_def] at h
  dsimp only at h
  rw [if_pos (by simpa using hq.size)] at h
  cases h
  exact .inr ⟨b, f, k, q, rfl, ⟨i, hq⟩, hk⟩

theorem outFlush_token {s : St} {h : H} {q : BufferQueue Nat} {o : Outcome} {i j : Nat} (hq : Has q [] i) (hp : s.pc = .token h false) (hj : h.nest + 2 < j)
    (ho : advance F (.go s) q = some o) : OutFlush F j o := by
  rw [advance_go] at ho
  unfold next at ho
  rw [hp] at ho
  dsimp only at ho
  unfold onToken at ho
  dsimp only at ho
  have start : ∀ ty, FinAct (onChar F s (s.child.getD {}) (.containerStart ty) none) := by
    intro ty
    unfold onChar handle
    dsimp only
    unfold onRes
    dsimp only
    split
    · trivial
    · exact trivial
  split at ho
  · exact .inl (advance_fin hq (start _) ho)
  · exact .inl (advance_fin hq (start _) ho)
  · split at ho
    · unfold codePoint at ho
      exact .inl (advance_fin hq (show FinAct (.read false false _) from .inr rfl) ho)
    · exact outFlush_read hq (fun _ => ⟨_, hj, .inr ⟨_, _, _, rfl, Nat.le_refl _⟩⟩) ho

theorem onSelf_eof {s : St} {x : Ctx} : FinAct (onSelf s x EOF) ∨ ∃ b f k, onSelf s x EOF = .read b f k ∧ ToHead k := by
  unfold onSelf
  dsimp only
  split
  · split
    · exact .inl rfl
    · exact .inr ⟨_, _, _, rfl, _, fun _ => rfl, rfl⟩
  · split
    · split
      · exact .inl rfl
      · exact .inr ⟨_, _, _, rfl, _, fun _ => rfl, rfl⟩
    · exact .inr ⟨_, _, _, rfl, _, fun _ => rfl, rfl⟩

/-- The end of the data, sent to a handler. -/
theorem onChar_eof {s : St} {x : Ctx} {h : H} {q : BufferQueue Nat} {o : Outcome} {i : Nat} (hq : Has q [] i) (ho : advance F (onChar F s x h (some { code := EOF })) q = some o) :
    OutFlush F (h.nest + 2) o ∨ ∃ ret prev, h = .commentBody ret true prev ∧ advance F (.go { s with child := some x, canFlush := ({ s with child := some x } : St).flushable, pc := .token (.commentBody ret true (some EOF)) false }) q = some o := by
  unfold onChar at ho
  have he := handle_eof (F := F) s.env x h
  simp only [Option.getD_some] at ho
  cases hr : handle F s.env x h { code := EOF } with
  | error e =>
    rw [hr] at ho
    dsimp only at ho
    exact .inl (.inl (advance_fin hq (by trivial) ho))
  | ok out =>
    rw [hr] at ho
    obtain ⟨hu, he⟩ := he out hr
    simp only [hu, Option.map_some] at ho
    rcases he with he | ⟨e, he⟩ | ⟨e, nx, he⟩ | ⟨h', he, hn⟩ | ⟨ret, prev, rfl, he1⟩
    · rw [he] at ho
      unfold onRes at ho
      simp only [Option.getD_some] at ho
      rcases onSelf_eof (s := s) (x := out.ctx) with h1 | ⟨b, f, k, h1, h2⟩
      · exact .inl (.inl (advance_fin hq h1 ho))
      · rw [h1] at ho
        exact .inl (outFlush_read hq (fun _ => ⟨1, by omega, .inl ⟨h2, Nat.le_refl _⟩⟩) ho)
    · rw [he] at ho
      refine .inl (.inl (advance_fin hq ?_ ho))
      unfold onRes
      dsimp only
      split
      · trivial
      · split
        · exact rfl
        · exact rfl
    · rw [he] at ho
      refine .inl (.inl (advance_fin hq ?_ ho))
      exact (rfl : EOF = EOF)
    · rw [he] at ho
      exact .inl (outFlush_token hq rfl (by omega) ho)
    · refine .inr ⟨ret, prev, rfl, ?_⟩
      subst he1
      exact ho

/-- `NEXT` at the end of the data. -/
theorem flush {k : Nat → Act} {q : BufferQueue Nat} {o : Outcome} {i j : Nat} (hq : Has q [] i) (hk : Meas F j k) (ho : advance F (.read false true k) (q.extend [EOF]) = some o) :
    OutFlush F j o ∨ ∃ s x ret prev q', k = (fun c => onChar F s x (.commentBody ret true prev) (some { code := c })) ∧ (∃ i, Has q' [] i) ∧
      advance F (.go { s with child := some x, canFlush := ({ s with child := some x } : St).flushable, pc := .token (.commentBody ret true (some EOF)) false }) q' = some o := by
  have h1 := hq.extend (d := [EOF]) (by simp)
  rw [List.nil_append] at h1
  rw [advance.eq_def] at ho
  dsimp only at ho
  rw [if_neg (by rw [h1.size]; simp)] at ho
  obtain ⟨q', h2, h3⟩ := h1.read
  rw [h2] at ho
  dsimp only at ho
  rcases hk with ⟨⟨g, hg, rfl⟩, hj⟩ | ⟨s, x, h, rfl, hj⟩
  · refine .inl (.inl (advance_fin h3 ?_ ho))
    show FinSt (g EOF)
    unfold FinSt
    rw [hg]
  · rcases onChar_eof h3 ho with h4 | ⟨ret, prev, rfl, h4⟩
    · refine .inl ?_
      rcases h4 with h4 | ⟨b, f, k, q, rfl, h4, h5⟩
      · exact .inl h4
      · refine .inr ⟨b, f, k, q, rfl, h4, fun hf => ?_⟩
        obtain ⟨i, h6, h7⟩ := h5 hf
        exact ⟨i, by omega, h7⟩
    · exact .inr ⟨s, x, ret, prev, q', rfl, ⟨_, h3⟩, h4⟩

/-- In a comment that is not closed the reader goes on waiting, or it does not allow to be flushed. -/
theorem comment_waits {s : St} {x : Ctx} {ret : Option H} {q : BufferQueue Nat} {i : Nat} (hq : Has q [] i) :
    let s' := { s with child := some x, canFlush := ({ s with child := some x } : St).flushable, pc := .token (.commentBody ret true (some EOF)) false }
    (∃ k, advance F (.go s') q = some (.block false false k q)) ∨
    (x.quoted = false ∧ advance F (.go s') q = some (.block false ({ s with child := some x } : St).flushable (fun c => onChar F s' x (.commentBody ret true (some EOF)) (some { code := c })) q)) := by
  dsimp only
  have hz : q.size = 0 := by simpa using hq.size
  rw [advance_go]
  unfold next onToken
  dsimp only [Option.getD_some]
  cases hx : x.quoted with
  | true =>
    rw [if_pos (by simp)]
    unfold codePoint
    rw [advance.eq_def]
    dsimp only
    rw [if_pos hz]
    exact .inl ⟨_, rfl⟩
  | false =>
    rw [if_neg (by simp)]
    rw [advance.eq_def]
    dsimp only
    rw [if_pos hz]
    exact .inr ⟨rfl, rfl⟩

/-- Once lost, the reader answers `INCOMPLETE` for ever. -/
theorem lost_next {units : Bytes → List Nat} {st : Status} (h : Lost F st) : ∃ st', send F units st .next = (.ok ION_STREAM_INCOMPLETE_EVENT, st') ∧ Lost F st' := by
  obtain ⟨s, x, ret, prev, q, d, sk, rfl, ⟨i, hq⟩, hx, hf⟩ := h
  unfold send
  simp only [Bool.false_eq_true, if_false, if_true]
  have h1 := hq.extend (d := [EOF]) (by simp)
  rw [List.nil_append] at h1
  obtain ⟨q', h2, h3⟩ := h1.read
  have key : advance F (.read false true fun c => onChar F s x (.commentBody ret true prev) (some { code := c })) (q.extend [EOF]) =
      advance F (.go { s with child := some x, canFlush := ({ s with child := some x } : St).flushable, pc := .token (.commentBody ret true (some EOF)) false }) q' := by
    rw [advance.eq_def]
    dsimp only
    rw [if_neg (by rw [h1.size]; simp), h2]
    dsimp only
    unfold onChar handle onComment
    simp only [Option.getD_some, if_true, show (EOF = 47) = False by simp [EOF], decide_false, Bool.and_false, Bool.false_eq_true, if_false, Option.map_some, onRes]
  rw [deliver, key]
  rcases comment_waits (F := F) (s := s) (x := x) (ret := ret) h3 with ⟨k, h4⟩ | ⟨-, h4⟩
  · exfalso
    rw [advance_go] at h4
    unfold next onToken at h4
    dsimp only [Option.getD_some] at h4
    rw [if_neg (by simp [hx]), advance.eq_def] at h4
    dsimp only at h4
    rw [if_pos (by simpa using h3.size)] at h4
    simp only [Option.some.injEq, Outcome.block.injEq] at h4
    rw [hf] at h4
    exact absurd h4.2.1 (by simp)
  · rw [h4, hf]
    simp only [Option.bind_eq_bind, Option.bind_some, Bool.and_false, Bool.false_eq_true, if_false, orDiverge, Option.getD_some]
    refine ⟨_, rfl, ?_⟩
    exact ⟨_, x, ret, some EOF, q', d, sk, rfl, ⟨_, h3⟩, hx, hf⟩

/-! ## After all data has been read -/

/-- The potential of the state of the reader, when there is no more data. -/
def EPot (F : FloatText) (n : Nat) : Status → Prop
  | .fresh => 8 ≤ n
  | .paused _ s q _ => (∃ l k, Has q l k ∧ bound s l + 8 ≤ n) ∨ (∃ k, Has q [] k ∧ FinSt s ∧ bound s [] ≤ n)
  | .blocked b f k q _ _ => b = true ∨ f = false ∨ (8 ≤ n ∧ (∃ j, Has q [] j) ∧ (ToHead k ∨ ToChar F k))
  | .waiting _ _ _ _ => True
  | .dead => True

theorem EPot.mono {n m : Nat} {st : Status} (h : EPot F n st) (hm : n ≤ m) : EPot F m st := by
  cases st with
  | fresh => exact Nat.le_trans h hm
  | paused e s q d =>
    rcases h with ⟨l, k, h1, h2⟩ | ⟨k, h1, h2, h3⟩
    · exact .inl ⟨l, k, h1, by omega⟩
    · exact .inr ⟨k, h1, h2, by omega⟩
  | blocked b f k q d sk =>
    rcases h with h | h | ⟨h, h'⟩
    · exact .inl h
    · exact .inr (.inl h)
    · exact .inr (.inr ⟨by omega, h'⟩)
  | waiting a q d sk => trivial
  | dead => trivial

theorem SPot.epot {n : Nat} {st : Status} (h : SPot F n st) : EPot F (n + 8) st := by
  cases st with
  | fresh => exact Nat.le_add_left _ _
  | paused e s q d =>
    obtain ⟨l, k, h1, h2⟩ := h
    exact .inl ⟨l, k, h1, by omega⟩
  | blocked b f k q d sk =>
    cases f with
    | false => exact .inr (.inl rfl)
    | true => exact .inr (.inr ⟨by omega, h.1, h.2.2.1 rfl⟩)
  | waiting a q d sk => trivial
  | dead => trivial

/-- The states in which `INCOMPLETE` may be answered after the end of the data. -/
def Flushes (F : FloatText) (j : Nat) (f : Bool) (k : Nat → Act) : Prop := f = true → Meas F j k

theorem ans_epot {n : Nat} {r : Except PyErr IonEvent × Status} (h : PotAns (SPot F) n (fun _ _ => True) r) : ∃ j, PotAns (EPot F) (n + 8) (Flushes F j) r := by
  obtain ⟨a, st⟩ := r
  cases a with
  | error e => exact ⟨0, trivial⟩
  | ok e =>
    rcases h with ⟨h1, m, h2, h3⟩ | ⟨h1, h2, h3, h4⟩
    · exact ⟨0, .inl ⟨h1, m + 8, by omega, h3.epot⟩⟩
    · by_cases he : e.eventType = .incomplete
      · obtain ⟨f, k, q, d, sk, h5, -⟩ := h4 he
        simp only at h5
        subst h5
        cases f with
        | false => exact ⟨0, .inr ⟨SPot.epot h1, h2, h3, fun _ => ⟨_, _, _, _, _, rfl, by rintro ⟨⟩⟩⟩⟩
        | true =>
          obtain ⟨j, hj⟩ := exists_meas (h1.2.2.1 rfl)
          exact ⟨j, .inr ⟨SPot.epot h1, h2, h3, fun _ => ⟨_, _, _, _, _, rfl, fun _ => hj⟩⟩⟩
      · exact ⟨0, .inr ⟨SPot.epot h1, h2, h3, fun h => absurd h he⟩⟩

/-- An outcome after the end of the data, and the potential. -/
theorem deliver_fin {depth : Int} {skipping : Bool} {a : Act} {q : BufferQueue Nat} {n : Nat} {r : Except PyErr IonEvent × Status}
    (ha : ∀ o, advance F a q = some o → OutPot F n o ∧ FinOut o) (h : deliver F depth skipping a q = some r) : PotAns (EPot F) n (fun f _ => f = false) r := by
  refine deliver.partial_correctness F depth (fun skipping a q r => ∀ n, (∀ o, advance F a q = some o → OutPot F n o ∧ FinOut o) → PotAns (EPot F) n (fun f _ => f = false) r) ?_ skipping a q r h n ha
  intro del ih skipping a q r h n ha
  cases ho : advance F a q with
  | none => rw [ho] at h; cases h
  | some o =>
    rw [ho] at h
    obtain ⟨h1, hf⟩ := ha o ho
    simp only [Option.bind_eq_bind, Option.bind_some] at h
    cases o with
    | error e => cases h; trivial
    | block b f k q =>
      dsimp only at h
      split at h
      · cases h
      · cases h
        refine .inr ⟨?_, ?_, trivial, ?_⟩
        · rcases hf with hf | hf
          · exact .inl hf
          · exact .inr (.inl hf)
        · cases b <;> exact ⟨rfl, rfl⟩
        · cases b
          · refine fun _ => ⟨_, _, _, _, _, rfl, ?_⟩
            rcases hf with hf | hf
            · cases hf
            · exact hf
          · rintro ⟨⟩
    | waiting a q =>
      dsimp only at h
      split at h
      · cases h
      · cases h; exact .inr ⟨trivial, ⟨rfl, rfl⟩, trivial, by rintro ⟨⟩⟩
    | event e s q =>
      obtain ⟨l, k, h2, h3⟩ := h1
      obtain ⟨⟨k', h4⟩, h5⟩ := hf
      have hl : l = [] := by
        have h6 := h2.size
        rw [h4.size] at h6
        cases l with
        | nil => rfl
        | cons _ _ => simp at h6; omega
      subst hl
      have paused : ∀ d, PotAns (EPot F) n (fun f _ => f = false) (.ok e, .paused e s q d) := fun d => .inl ⟨trivial, bound s [], h3, .inr ⟨k, h2, h5, Nat.le_refl _⟩⟩
      dsimp only at h
      split at h
      · split at h
        · cases h; exact paused _
        · refine (ih _ _ _ _ h (bound s []) fun o ho => ?_).mono EPot.mono (by omega)
          rw [advance_go] at ho
          exact ⟨advance_pot h2 pot_next forms_next ho, advance_fin h2 (fin_next h5) ho⟩
      · split at h
        · cases h; exact paused _
        · cases h; exact paused _

theorem ans_flushes {n j : Nat} {r : Except PyErr IonEvent × Status} (h : PotAns (EPot F) n (fun f _ => f = false) r) : PotAns (EPot F) n (Flushes F j) r := by
  obtain ⟨a, st⟩ := r
  cases a with
  | error e => trivial
  | ok e =>
    rcases h with h | ⟨h1, h2, h3, h4⟩
    · exact .inl h
    · refine .inr ⟨h1, h2, h3, fun he => ?_⟩
      obtain ⟨f, k, q, d, sk, h5, rfl⟩ := h4 he
      exact ⟨_, _, _, _, _, h5, by rintro ⟨⟩⟩

theorem send_paused_epot {units : Bytes → List Nat} {st : Status} {cmd : RawReader.Cmd} {n : Nat} (hs : EPot F n st) (hp : Paused st) (hc : NoData cmd) : ∃ j, PotAns (EPot F) n (Flushes F j) (send F units st cmd) := by
  cases st with
  | paused e s q d =>
    rcases hs with ⟨l, k, h1, h2⟩ | ⟨k, h1, h2, h3⟩
    · obtain ⟨j, hj⟩ := ans_epot (send_paused_pot (F := F) (units := units) (st := .paused e s q d) (n := bound s l) ⟨l, k, h1, Nat.le_refl _⟩ trivial hc)
      exact ⟨j, hj.mono EPot.mono h2⟩
    · have go : ∀ sk, PotAns (EPot F) n (Flushes F 0) (orDiverge (deliver F d sk (.go s) q)) := fun sk => by
        cases h : deliver F d sk (.go s) q with
        | none => trivial
        | some r =>
          refine ans_flushes (deliver_fin (fun o ho => ?_) h)
          rw [advance_go] at ho
          exact ⟨(advance_pot h1 pot_next forms_next ho).mono h3, advance_fin h1 (fin_next h2) ho⟩
      refine ⟨0, ?_⟩
      cases cmd with
      | data d => exact (hc d rfl).elim
      | next => exact go false
      | skip =>
        unfold send
        dsimp only
        split
        · trivial
        · exact go true
  | _ => exact hp.elim

/-- `NEXT` after `INCOMPLETE` at the end of the data. -/
theorem send_flush {units : Bytes → List Nat} {f : Bool} {k : Nat → Act} {q : BufferQueue Nat} {d : Int} {sk : Bool} {n j : Nat} (hs : EPot F n (.blocked false f k q d sk)) (hj : Flushes F j f k) :
    Lost F (.blocked false f k q d sk) ∨ PotAns (EPot F) n (fun f k => f = true → ∃ i, i < j ∧ Meas F i k) (send F units (.blocked false f k q d sk) .next) := by
  cases f with
  | false => exact .inr trivial
  | true =>
    rcases hs with hs | hs | ⟨hn, ⟨i, hq⟩, hk⟩
    · cases hs
    · cases hs
    · unfold send
      simp only [Bool.false_eq_true, if_false, if_true]
      by_cases hl : Lost F (.blocked false true k q d sk)
      · exact .inl hl
      · refine .inr ?_
        cases h : deliver F d sk (.read false true k) (q.extend [EOF]) with
        | none => trivial
        | some r =>
          show PotAns _ _ _ r
          rw [deliver] at h
          cases ho : advance F (.read false true k) (q.extend [EOF]) with
          | none => rw [ho] at h; cases h
          | some o =>
            rw [ho] at h
            simp only [Option.bind_eq_bind, Option.bind_some] at h
            -- a request for data
            have block : ∀ b f k' q', o = .block b f k' q' → (∃ i, Has q' [] i) → (f = true → ∃ i, i < j ∧ Meas F i k') → PotAns (EPot F) n (fun f k => f = true → ∃ i, i < j ∧ Meas F i k) r := by
              rintro b f k' q' rfl h1 h2
              dsimp only at h
              split at h
              · cases h
              · cases h
                refine .inr ⟨?_, ?_, trivial, ?_⟩
                · cases f with
                  | false => exact .inr (.inl rfl)
                  | true =>
                    refine .inr (.inr ⟨hn, h1, ?_⟩)
                    obtain ⟨i, -, h3⟩ := h2 rfl
                    rcases h3 with ⟨h3, -⟩ | ⟨s, x, hh, h3, -⟩
                    · exact .inl h3
                    · exact .inr ⟨s, x, hh, h3⟩
                · cases b <;> exact ⟨rfl, rfl⟩
                · cases b
                  · exact fun _ => ⟨_, _, _, _, _, rfl, h2⟩
                  · rintro ⟨⟩
            rcases flush hq (hj rfl) ho with (h1 | ⟨b, f, k', q', h1, h2, h3⟩) | ⟨s, x, ret, prev, q', rfl, ⟨i', h1⟩, h2⟩
            · cases o with
              | error e => cases h; trivial
              | block b f k' q' =>
                dsimp only at h
                split at h
                · cases h
                · cases h
                  refine .inr ⟨?_, ?_, trivial, ?_⟩
                  · rcases h1 with h1 | h1
                    · exact .inl h1
                    · exact .inr (.inl h1)
                  · cases b <;> exact ⟨rfl, rfl⟩
                  · cases b
                    · refine fun _ => ⟨_, _, _, _, _, rfl, ?_⟩
                      rcases h1 with h1 | h1
                      · cases h1
                      · rw [h1]; rintro ⟨⟩
                    · rintro ⟨⟩
              | waiting a q' =>
                dsimp only at h
                split at h
                · cases h
                · cases h; exact .inr ⟨trivial, ⟨rfl, rfl⟩, trivial, by rintro ⟨⟩⟩
              | event e s q' =>
                obtain ⟨⟨k', h2⟩, h3⟩ := h1
                have hb : bound s [] < n := by
                  have := s.rank_le
                  simp only [bound, List.length_nil]
                  omega
                have paused : ∀ d, PotAns (EPot F) n (fun f k => f = true → ∃ i, i < j ∧ Meas F i k) (.ok e, .paused e s q' d) := fun d => .inl ⟨trivial, bound s [], hb, .inr ⟨k', h2, h3, Nat.le_refl _⟩⟩
                dsimp only at h
                split at h
                · split at h
                  · cases h; exact paused _
                  · have := deliver_fin (n := bound s []) (fun o ho => by
                      rw [advance_go] at ho
                      exact ⟨advance_pot h2 pot_next forms_next ho, advance_fin h2 (fin_next h3) ho⟩) h
                    have := this.mono EPot.mono (Nat.le_of_lt hb)
                    obtain ⟨a, st⟩ := r
                    cases a with
                    | error e => trivial
                    | ok e =>
                      rcases this with h | ⟨g1, g2, g3, g4⟩
                      · exact .inl h
                      · refine .inr ⟨g1, g2, g3, fun he => ?_⟩
                        obtain ⟨f, k, q, d, sk, h5, rfl⟩ := g4 he
                        exact ⟨_, _, _, _, _, h5, by rintro ⟨⟩⟩
                · split at h
                  · cases h; exact paused _
                  · cases h; exact paused _
            · exact block b f k' q' h1 h2 h3
            · rcases comment_waits (F := F) (s := s) (x := x) (ret := ret) h1 with ⟨k', h3⟩ | ⟨hx, h3⟩
              · rw [h2] at h3
                simp only [Option.some.injEq] at h3
                exact block _ _ _ _ h3 ⟨_, h1⟩ (by rintro ⟨⟩)
              · rw [h2] at h3
                simp only [Option.some.injEq] at h3
                cases hfl : ({ s with child := some x } : St).flushable with
                | true => exact (hl ⟨s, x, ret, prev, q, d, sk, rfl, ⟨i, hq⟩, hx, hfl⟩).elim
                | false =>
                  rw [hfl] at h3
                  exact block _ _ _ _ h3 ⟨_, h1⟩ (by rintro ⟨⟩)

end Ion.TextReader

namespace Ion.Simple.TextEnds
open Ion Ion.TextReader Ion.ManagedReader
open Ion.RawReader (Cmd)

/-- A property of the states of the text reader, with the pieces of data that are still to come, that is kept by every request. -/
structure Kept (F : FloatText) (units : Bytes → List Nat) (P : List Bytes → TextReader.Status → Prop) : Prop where
  ask : ∀ {cs st cmd e st'}, P cs st → NoData cmd → TextReader.send F units st cmd = (.ok e, st') → P cs st'
  data : ∀ {d ds st e st'}, P (d :: ds) st → TextReader.send F units st (.data d) = (.ok e, st') → P ds st'

variable {F : FloatText} {units : Bytes → List Nat} {P : List Bytes → TextReader.Status → Prop} {catalog : Catalog}

abbrev tstep (F : FloatText) (units : Bytes → List Nat) := ManagedReader.send (TextReader.send F units)

/-- What is known of an answer of the managed reader. -/
def MAns (P : List Bytes → TextReader.Status → Prop) (cs : List Bytes) (V : Nat → TextReader.Status → Prop) (n : Nat) (Q : Bool → (Nat → Act) → Prop)
    (r : Except PyErr Event × ManagedReader.Status TextReader.Status) : Prop :=
  match r.1 with
  | .error _ => True
  | .ok e => ∃ st ctx h, r.2 = .live st ctx h ∧ P cs st ∧ ((Paused st ∧ ∃ m, m < n ∧ V m st) ∨
      (V n st ∧ e.eventType.isStreamSignal = true ∧ Waits st ∧ (e.eventType = .incomplete → ∃ f k q d sk, st = .blocked false f k q d sk ∧ Q f k)))

/-- A handler sends no data. -/
def Still : Except PyErr Reply → Prop
  | .ok (.ask c _) => NoData c
  | _ => True

theorem noData_next : NoData .next := by rintro d ⟨⟩
theorem noData_skip : NoData .skip := by rintro d ⟨⟩

theorem handle_still (ctx : Context) (h : Handler) (e : IonEvent) : Still (ManagedReader.handle ctx h e) := by
  unfold ManagedReader.handle
  split
  · exact noData_next
  · split
    · unfold onTable inheritTable
      dsimp only
      repeat' split
      all_goals first | trivial | exact noData_next | exact noData_skip
    · unfold onSymbols
      repeat' split
      all_goals first | trivial | exact noData_next | exact noData_skip
    · unfold onImports
      repeat' split
      all_goals first | trivial | exact noData_next | exact noData_skip
    · unfold onDesc endDesc
      repeat' split
      all_goals first | trivial | exact noData_next | exact noData_skip

theorem onUser_still {ctx ctx' : Context} {h h' : Option Handler} {e : IonEvent} {c : Cmd} (hr : onUser ctx h e = .ok (.ask c ctx' h')) : NoData c := by
  unfold onUser at hr
  repeat' split at hr
  all_goals first | (cases hr; done) | (cases hr; first | exact noData_next | exact noData_skip)

/-- The requests of the managed reader. -/
theorem react_noData {ctx ctx' : Context} {h h' : Option Handler} {e : IonEvent} {c : Cmd} (hr : react ctx h e = .ok (.ask c ctx' h')) : NoData c := by
  unfold react at hr
  split at hr
  · split at hr
    · exact onUser_still hr
    · rename_i hd _
      split at hr
      · cases hr
      · rename_i hh
        cases hr
        have := handle_still ctx hd e
        rw [hh] at this
        exact this
      · cases hr
        exact noData_next
  · exact onUser_still hr

theorem managed (hP : Kept F units P) {cs : List Bytes} {V : Nat → TextReader.Status → Prop} {Q : Nat → Bool → (Nat → Act) → Prop}
    (hV : ∀ {n st cmd}, V n st → Paused st → NoData cmd → ∃ j, PotAns V n (Q j) (TextReader.send F units st cmd)) :
    ∀ (n : Nat) (st : TextReader.Status) (ctx : Context) (h : Option Handler) (cmd : Cmd) (Q0 : Bool → (Nat → Act) → Prop), PotAns V n Q0 (TextReader.send F units st cmd) →
      (∀ e st', TextReader.send F units st cmd = (.ok e, st') → P cs st') →
      ∃ r, tstep F units (.live st ctx h) cmd = some r ∧ (MAns P cs V n Q0 r ∨ ∃ m, m < n ∧ ∃ j, MAns P cs V m (Q j) r) := by
  intro n
  induction n using Nat.strongRecOn with
  | _ n ih =>
    intro st ctx h cmd Q0 hj hp
    unfold tstep
    rw [ManagedReader.send]
    cases hs : TextReader.send F units st cmd with
    | mk a st' =>
      rw [hs] at hj
      cases a with
      | error err => exact ⟨_, rfl, .inl trivial⟩
      | ok e =>
        have hp' := hp e st' hs
        dsimp only
        cases hx : react ctx h e with
        | error err => exact ⟨_, rfl, .inl trivial⟩
        | ok act =>
          cases act with
          | give ctx' h' =>
            refine ⟨_, rfl, .inl ⟨st', ctx', h', rfl, hp', ?_⟩⟩
            rcases hj with hj | ⟨h1, h2, h3, h4⟩
            · exact .inl hj
            · exact .inr ⟨h1, h2.1, h3, h4⟩
          | ask c ctx' h' =>
            rcases hj with ⟨h1, m, h2, h3⟩ | ⟨h1, h2, h3, h4⟩
            · have hc := react_noData hx
              obtain ⟨j, hj⟩ := hV h3 h1 hc
              obtain ⟨r, hr, ha⟩ := ih m h2 st' ctx' h' c (Q j) hj (fun e'' st'' h'' => hP.ask hp' hc h'')
              refine ⟨r, hr, .inr ?_⟩
              rcases ha with ha | ⟨m', h5, j', ha⟩
              · exact ⟨m, h2, j, ha⟩
              · exact ⟨m', by omega, j', ha⟩
            · exact ((react_asks hx).2 h2.1 h2.2).elim

/-! ## The blocking reader -/

/-- Characters that are still to come. -/
def rest (units : Bytes → List Nat) (cs : List Bytes) : Nat := (cs.map fun c => (units c).length).sum

/-- The potential of the source of `load`. -/
def SrcPot (F : FloatText) (units : Bytes → List Nat) (P : List Bytes → TextReader.Status → Prop) (n : Nat) : Source (ManagedReader.Status TextReader.Status) → Prop
  | .active (.live st _ _) cs => (Paused st ∨ st = .fresh) ∧ P cs st ∧ ((∃ m, SPot F m st ∧ m + 16 * rest units cs + 10 ≤ n) ∨ (cs = [] ∧ Paused st ∧ ∃ m, EPot F m st ∧ m + 2 ≤ n))
  | .active .dead _ => 2 ≤ n
  | .ended => 1 ≤ n
  | .dead => True

theorem SrcPot.mono {n m : Nat} {src : Source (ManagedReader.Status TextReader.Status)} (h : SrcPot F units P n src) (hm : n ≤ m) : SrcPot F units P m src := by
  rcases src with ⟨st, cs⟩ | _ | _
  · cases st with
    | live st c h' =>
      refine ⟨h.1, h.2.1, ?_⟩
      rcases h.2.2 with ⟨i, h1, h2⟩ | ⟨h1, h2, i, h3, h4⟩
      · exact .inl ⟨i, h1, by omega⟩
      · exact .inr ⟨h1, h2, i, h3, by omega⟩
    | dead => exact Nat.le_trans h hm
  · exact Nat.le_trans h hm
  · trivial

/-- What is known of an answer of the blocking reader. -/
def SrcAns (F : FloatText) (units : Bytes → List Nat) (P : List Bytes → TextReader.Status → Prop) (n : Nat) (p : Except PyErr Event × Source (ManagedReader.Status TextReader.Status)) : Prop :=
  match p.1 with
  | .error _ => True
  | .ok _ => ∃ m, m < n ∧ SrcPot F units P m p.2

theorem SrcAns.mono {n m : Nat} {p : Except PyErr Event × Source (ManagedReader.Status TextReader.Status)} (h : SrcAns F units P n p) (hm : n ≤ m) : SrcAns F units P m p := by
  obtain ⟨a, S⟩ := p
  cases a with
  | error err => trivial
  | ok e => obtain ⟨i, h1, h2⟩ := h; exact ⟨i, by omega, h2⟩

/-- The end of the data, in a state from which nothing but `INCOMPLETE` is answered. -/
def Hopeless (F : FloatText) (P : List Bytes → TextReader.Status → Prop) : Prop := ∃ st, P [] st ∧ Lost F st

theorem await_end (hP : Kept F units P) : ∀ (n j : Nat) (p : Except PyErr Event × ManagedReader.Status TextReader.Status), MAns P [] (EPot F) n (Flushes F j) p →
    Hopeless F P ∨ ∃ o, awaitEvent (tstep F units) p.1 p.2 [] = some o ∧ SrcAns F units P (n + 2) o := by
  intro n
  induction n using Nat.strongRecOn with
  | _ n ihn =>
    intro j
    induction j using Nat.strongRecOn with
    | _ j ihj =>
      rintro ⟨a, S⟩ hp
      rw [awaitEvent.eq_def]
      cases a with
      | error err => exact .inr ⟨_, rfl, trivial⟩
      | ok e =>
        obtain ⟨st, ctx, h, rfl, h1, h2⟩ := hp
        dsimp only
        by_cases he : e.eventType.isStreamSignal = true
        · rw [if_pos he]
          by_cases hi : e.eventType = .incomplete
          · rw [if_pos hi]
            have less : ∀ {m i r}, m < n → MAns P [] (EPot F) m (Flushes F i) r → Hopeless F P ∨ ∃ o, awaitEvent (tstep F units) r.1 r.2 [] = some o ∧ SrcAns F units P (n + 2) o := by
              intro m i r hm hi
              rcases ihn m hm i r hi with h | ⟨o, ho, hs⟩
              · exact .inl h
              · exact .inr ⟨o, ho, hs.mono (by omega)⟩
            rcases h2 with ⟨h3, m, h4, h5⟩ | ⟨h3, h4, h5, h6⟩
            · obtain ⟨i, h6⟩ := send_paused_epot (units := units) h5 h3 noData_next
              obtain ⟨r, hr, ha⟩ := managed hP (cs := []) (V := EPot F) (Q := Flushes F) send_paused_epot m st ctx h .next _ h6 (fun e' st' h' => hP.ask h1 noData_next h')
              rw [hr]
              simp only [Option.bind_eq_bind, Option.bind_some]
              rcases ha with ha | ⟨m', h7, i', ha⟩
              · exact less h4 ha
              · exact less (by omega) ha
            · obtain ⟨f, k, q, d, sk, rfl, h7⟩ := h6 hi
              rcases send_flush (units := units) h3 h7 with h8 | h8
              · exact .inl ⟨_, h1, h8⟩
              · obtain ⟨r, hr, ha⟩ := managed hP (cs := []) (V := EPot F) (Q := Flushes F) send_paused_epot n _ ctx h .next _ h8 (fun e' st' h' => hP.ask h1 noData_next h')
                rcases ha with ha | ⟨m', h9, i', ha⟩
                · rw [hr]
                  simp only [Option.bind_eq_bind, Option.bind_some]
                  obtain ⟨b, S⟩ := r
                  cases b with
                  | error err => rw [awaitEvent.eq_def]; exact .inr ⟨_, rfl, trivial⟩
                  | ok e' =>
                    obtain ⟨st', c', h', rfl, g2, g3⟩ := ha
                    have hj : ∃ i, i < j := by
                      cases f with
                      | false =>
                        unfold tstep at hr
                        rw [ManagedReader.send] at hr
                        unfold TextReader.send at hr
                        simp only [Bool.false_eq_true, if_false] at hr
                        cases hr
                      | true =>
                        rcases h7 rfl with ⟨-, g4⟩ | ⟨s, x, h, -, g4⟩
                        · exact ⟨0, by omega⟩
                        · exact ⟨0, by omega⟩
                    rcases g3 with g3 | ⟨g3, g4, g5, g6⟩
                    · obtain ⟨i, hij⟩ := hj
                      exact ihj i hij _ ⟨st', c', h', rfl, g2, .inl g3⟩
                    · by_cases hi' : e'.eventType = .incomplete
                      · obtain ⟨f', k', q', d', sk', g7, g8⟩ := g6 hi'
                        cases f' with
                        | false =>
                          obtain ⟨i, hij⟩ := hj
                          exact ihj i hij _ ⟨st', c', h', rfl, g2, .inr ⟨g3, g4, g5, fun _ => ⟨_, k', q', d', sk', g7, by rintro ⟨⟩⟩⟩⟩
                        | true =>
                          obtain ⟨i, hij, g9⟩ := g8 rfl
                          exact ihj i hij _ ⟨st', c', h', rfl, g2, .inr ⟨g3, g4, g5, fun _ => ⟨_, k', q', d', sk', g7, fun _ => g9⟩⟩⟩
                      · obtain ⟨i, hij⟩ := hj
                        exact ihj i hij _ ⟨st', c', h', rfl, g2, .inr ⟨g3, g4, g5, fun h => absurd h hi'⟩⟩
                · rw [hr]
                  simp only [Option.bind_eq_bind, Option.bind_some]
                  exact less h9 ha
          · rw [if_neg hi]
            exact .inr ⟨_, rfl, 1, by omega, Nat.le_refl _⟩
        · rw [if_neg he]
          refine .inr ⟨_, rfl, ?_⟩
          rcases h2 with ⟨h3, m, h4, h5⟩ | ⟨h3, h4, -⟩
          · exact ⟨m + 2, by omega, .inl h3, h1, .inr ⟨rfl, h3, m, h5, Nat.le_refl _⟩⟩
          · exact absurd h4 he

/-- From the potential of a stream with more data to that at its end. -/
theorem MAns.epot {cs : List Bytes} {n : Nat} {r : Except PyErr Event × ManagedReader.Status TextReader.Status} (h : MAns P cs (SPot F) n (fun _ _ => True) r) :
    ∃ j, MAns P cs (EPot F) (n + 8) (Flushes F j) r := by
  obtain ⟨a, S⟩ := r
  cases a with
  | error err => exact ⟨0, trivial⟩
  | ok e =>
    obtain ⟨st, c, h', rfl, h1, h2⟩ := h
    rcases h2 with ⟨h2, m, h3, h4⟩ | ⟨h2, h3, h4, h5⟩
    · exact ⟨0, st, c, h', rfl, h1, .inl ⟨h2, m + 8, by omega, h4.epot⟩⟩
    · by_cases he : e.eventType = .incomplete
      · obtain ⟨f, k, q, d, sk, rfl, -⟩ := h5 he
        cases f with
        | false => exact ⟨0, _, c, h', rfl, h1, .inr ⟨SPot.epot h2, h3, h4, fun _ => ⟨_, _, _, _, _, rfl, by rintro ⟨⟩⟩⟩⟩
        | true =>
          rcases SPot.epot h2 with h6 | h6 | ⟨h6, h7, h8⟩
          · cases h6
          · cases h6
          · obtain ⟨j, hj⟩ := exists_meas h8
            exact ⟨j, _, c, h', rfl, h1, .inr ⟨SPot.epot h2, h3, h4, fun _ => ⟨_, _, _, _, _, rfl, fun _ => hj⟩⟩⟩
      · exact ⟨0, st, c, h', rfl, h1, .inr ⟨SPot.epot h2, h3, h4, fun h => absurd h he⟩⟩

theorem MAns.mono {cs : List Bytes} {n m : Nat} {r : Except PyErr Event × ManagedReader.Status TextReader.Status} (h : MAns P cs (SPot F) n (fun _ _ => True) r) (hm : n ≤ m) :
    MAns P cs (SPot F) m (fun _ _ => True) r := by
  obtain ⟨a, S⟩ := r
  cases a with
  | error err => trivial
  | ok e =>
    obtain ⟨st, c, h', h0, h1, h2⟩ := h
    refine ⟨st, c, h', h0, h1, ?_⟩
    rcases h2 with ⟨h2, i, h3, h4⟩ | ⟨h2, h3⟩
    · exact .inl ⟨h2, i, by omega, h4⟩
    · exact .inr ⟨h2.mono hm, h3⟩

/-- One request to the managed reader, while there may be more data. -/
theorem managed_spot (hP : Kept F units P) {cs : List Bytes} {n : Nat} {st : TextReader.Status} {ctx : Context} {h : Option Handler} {cmd : Cmd} (ha : PotAns (SPot F) n (fun _ _ => True) (TextReader.send F units st cmd))
    (hp : ∀ e st', TextReader.send F units st cmd = (.ok e, st') → P cs st') :
    ∃ r, tstep F units (.live st ctx h) cmd = some r ∧ MAns P cs (SPot F) n (fun _ _ => True) r := by
  obtain ⟨r, hr, ha⟩ := managed hP (cs := cs) (V := SPot F) (Q := fun _ _ _ => True) (fun h1 h2 h3 => ⟨0, send_paused_pot h1 h2 h3⟩) n st ctx h cmd _ ha hp
  refine ⟨r, hr, ?_⟩
  rcases ha with ha | ⟨m, h1, -, ha⟩
  · exact ha
  · exact ha.mono (by omega)

theorem await_ends (hP : Kept F units P) (cs : List Bytes) : ∀ (n : Nat) (p : Except PyErr Event × ManagedReader.Status TextReader.Status), MAns P cs (SPot F) n (fun _ _ => True) p →
    Hopeless F P ∨ ∃ o, awaitEvent (tstep F units) p.1 p.2 cs = some o ∧ SrcAns F units P (n + 16 * rest units cs + 10) o := by
  induction cs with
  | nil =>
    intro n p hp
    obtain ⟨j, hj⟩ := hp.epot
    rcases await_end hP _ _ _ hj with h | ⟨o, h1, h2⟩
    · exact .inl h
    · exact .inr ⟨o, h1, h2.mono (by simp [rest])⟩
  | cons d ds ih =>
    rintro n ⟨a, S⟩ hp
    rw [awaitEvent.eq_def]
    cases a with
    | error err => exact .inr ⟨_, rfl, trivial⟩
    | ok e =>
      obtain ⟨st, ctx, h, rfl, h1, h2⟩ := hp
      dsimp only
      have hd : rest units (d :: ds) = (units d).length + rest units ds := by simp [rest]
      by_cases he : e.eventType.isStreamSignal = true
      · rw [if_pos he]
        have go : ∀ {m}, m ≤ n + 16 * (units d).length → PotAns (SPot F) m (fun _ _ => True) (TextReader.send F units st (.data d)) →
            Hopeless F P ∨ ∃ o, ((tstep F units (.live st ctx h) (.data d)) >>= fun p => awaitEvent (tstep F units) p.1 p.2 ds) = some o ∧ SrcAns F units P (n + 16 * rest units (d :: ds) + 10) o := by
          intro m hm ha
          obtain ⟨r, hr, hr'⟩ := managed_spot hP (cs := ds) (ctx := ctx) (h := h) ha (fun e' st' h' => hP.data h1 h')
          rw [hr]
          simp only [Option.bind_eq_bind, Option.bind_some]
          rcases ih _ _ hr' with h | ⟨o, h2, h3⟩
          · exact .inl h
          · exact .inr ⟨o, h2, h3.mono (by omega)⟩
        rcases h2 with ⟨h3, m, h4, h5⟩ | ⟨h3, h4, h5, -⟩
        · cases st with
          | paused e s q dp => exact go (m := n) (by omega) trivial
          | _ => exact h3.elim
        · exact go (Nat.le_refl _) (send_data_pot h3 h5)
      · rw [if_neg he]
        refine .inr ⟨_, rfl, ?_⟩
        rcases h2 with ⟨h3, m, h4, h5⟩ | ⟨h3, h4, -⟩
        · exact ⟨m + 16 * rest units (d :: ds) + 10, by omega, .inl h3, h1, .inl ⟨m, h5, Nat.le_refl _⟩⟩
        · exact absurd h4 he

theorem next_ends (hP : Kept F units P) {n : Nat} {src : Source (ManagedReader.Status TextReader.Status)} (hs : SrcPot F units P n src) :
    Hopeless F P ∨ ∃ o, nextEvent (tstep F units) src = some o ∧ SrcAns F units P n o := by
  rcases src with ⟨S, cs⟩ | _ | _
  · cases S with
    | dead =>
      refine .inr ⟨(.error .stopIteration, .dead), ?_, trivial⟩
      unfold nextEvent tstep
      dsimp only
      rw [ManagedReader.send.eq_def, Option.bind_eq_bind, Option.bind_some, awaitEvent.eq_def]
    | live st ctx h =>
      obtain ⟨h1, h2, h3⟩ := hs
      have hk : ∀ e' st', TextReader.send F units st .next = (.ok e', st') → P cs st' := fun e' st' h' => hP.ask h2 noData_next h'
      unfold nextEvent
      dsimp only
      rcases h3 with ⟨m, h3, h4⟩ | ⟨rfl, h3, m, h4, h5⟩
      · have ha : PotAns (SPot F) m (fun _ _ => True) (TextReader.send F units st .next) := by
          rcases h1 with h1 | rfl
          · exact send_paused_pot h3 h1 noData_next
          · exact send_fresh_pot
        obtain ⟨r, hr, hr'⟩ := managed_spot hP (cs := cs) (ctx := ctx) (h := h) ha hk
        rw [hr]
        simp only [Option.bind_eq_bind, Option.bind_some]
        rcases await_ends hP cs _ _ hr' with h | ⟨o, h5, h6⟩
        · exact .inl h
        · exact .inr ⟨o, h5, h6.mono (by omega)⟩
      · obtain ⟨j, ha⟩ := send_paused_epot (units := units) h4 h3 noData_next
        obtain ⟨r, hr, hr'⟩ := managed hP (cs := []) (V := EPot F) (Q := Flushes F) send_paused_epot m st ctx h .next _ ha hk
        rw [hr]
        simp only [Option.bind_eq_bind, Option.bind_some]
        rcases hr' with hr' | ⟨m', h6, j', hr'⟩
        · rcases await_end hP _ _ _ hr' with h | ⟨o, h5, h6⟩
          · exact .inl h
          · exact .inr ⟨o, h5, h6.mono (by omega)⟩
        · rcases await_end hP _ _ _ hr' with h | ⟨o, h5, h6⟩
          · exact .inl h
          · exact .inr ⟨o, h5, h6.mono (by omega)⟩
  · exact .inr ⟨_, rfl, trivial⟩
  · exact .inr ⟨_, rfl, trivial⟩

theorem loop_ends (hP : Kept F units P) (n : Nat) : ∀ (src : Source (ManagedReader.Status TextReader.Status)), SrcPot F units P n src → ∀ (endType : IonEventType) (out : Out),
    Hopeless F P ∨ ∃ r, loadLoop (tstep F units) endType out src = some r ∧ ∀ p, r = .ok p → ∃ m, m < n ∧ SrcPot F units P m p.2 := by
  induction n using Nat.strongRecOn with
  | _ n ih =>
    intro src hn endType out
    rw [loadLoop]
    rcases next_ends hP hn with hh | ⟨o, ho, ha⟩
    · exact .inl hh
    obtain ⟨a, src'⟩ := o
    rw [ho]
    simp only [Option.bind_eq_bind, Option.bind_some]
    cases a with
    | error err => exact .inr ⟨_, rfl, fun p hp => by cases hp⟩
    | ok e =>
      obtain ⟨m, hm, ha⟩ := ha
      have again : ∀ out', Hopeless F P ∨ ∃ r, loadLoop (tstep F units) endType out' src' = some r ∧ ∀ p, r = .ok p → ∃ m, m < n ∧ SrcPot F units P m p.2 := by
        intro out'
        rcases ih m hm src' ha endType out' with hh | ⟨r, hr, hp⟩
        · exact .inl hh
        · exact .inr ⟨r, hr, fun p h => by obtain ⟨i, h1, h2⟩ := hp p h; exact ⟨i, by omega, h2⟩⟩
      dsimp only
      split
      · exact .inr ⟨_, rfl, fun p hp => by cases hp; exact ⟨m, hm, ha⟩⟩
      · split
        · cases newContainer e with
          | error err => exact .inr ⟨_, rfl, fun p hp => by cases hp⟩
          | ok c =>
            dsimp only
            rcases ih m hm src' ha .containerEnd c.1 with hh | ⟨r, hr, hp⟩
            · exact .inl hh
            rw [hr]
            simp only [Option.bind_some]
            cases r with
            | error err => exact .inr ⟨_, rfl, fun p hp => by cases hp⟩
            | ok q =>
              obtain ⟨i, hi, hq⟩ := hp q rfl
              dsimp only
              cases out.add e (q.1.obj c.2.1 c.2.2) with
              | error err => exact .inr ⟨_, rfl, fun p hp => by cases hp⟩
              | ok out' =>
                rcases ih i (by omega) q.2 hq endType out' with hh | ⟨r, hr, hp⟩
                · exact .inl hh
                · exact .inr ⟨r, hr, fun p h => by obtain ⟨i', h1, h2⟩ := hp p h; exact ⟨i', by omega, h2⟩⟩
        · split
          · cases scalarObj e with
            | error err => exact .inr ⟨_, rfl, fun p hp => by cases hp⟩
            | ok o =>
              dsimp only
              cases out.add e o with
              | error err => exact .inr ⟨_, rfl, fun p hp => by cases hp⟩
              | ok out' => exact again out'
          · exact again out

/-- `load` of text ends, or the reader is lost in a comment at the end of the data. -/
theorem loadText_ends (hP : Kept F units P) (catalog : Catalog) (single : Bool) (cs : List Bytes) (h0 : P cs .fresh) :
    Hopeless F P ∨ ∃ r, loadText F units catalog single cs = some r := by
  rcases loop_ends hP (0 + 16 * rest units cs + 10) (.active (.live .fresh { catalog := catalog } none) cs) ⟨.inr rfl, h0, .inl ⟨0, trivial, Nat.le_refl _⟩⟩ .streamEnd (.list []) with h | ⟨r, hr, -⟩
  · exact .inl h
  · refine .inr ?_
    unfold loadText loadFrom
    unfold tstep at hr
    rw [hr]
    simp only [Option.bind_eq_bind, Option.bind_some]
    cases r with
    | error err => exact ⟨_, rfl⟩
    | ok p =>
      dsimp only
      split <;> exact ⟨_, rfl⟩

end Ion.Simple.TextEnds
