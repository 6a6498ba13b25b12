import Verif.ManagedSpec
import Verif.Props.Nesting
import Verif.Props.Catalog
import Verif.Props.Symbols
set_option linter.unusedSimpArgs false
/-!
# Properties C20, C21, C22, C23: the managed reader
-/
namespace Ion.Catalog
open Ion Spec SymbolTable

/-- A catalog as a program can build it: from `SymbolTableCatalog()` by registering tables. -/
def Registered (c : Catalog) : Prop := ∃ history, (∀ t ∈ history, Shared t) ∧ registerAll history = .ok c

/-- The tables in a catalog are shared tables, filed under their names. -/
theorem registered_get {c : Catalog} (h : Registered c) {name : Text} {vs : PyDict (Option Int) SymbolTable} {v : Option Int}
    {t : SymbolTable} (h1 : PyDict.get c (some name) = some vs) (h2 : PyDict.get vs v = some t) : Shared t ∧ t.name = some name := by
  obtain ⟨history, hs, hr⟩ := h
  have key : ∀ (ts : List SymbolTable) (c c' : Catalog), (∀ t ∈ ts, Shared t) →
      (∀ name vs v t, PyDict.get c (some name) = some vs → PyDict.get vs v = some t → Shared t ∧ t.name = some name) →
      ts.foldlM (fun c t => Catalog.register c t) c = .ok c' →
      (∀ name vs v t, PyDict.get c' (some name) = some vs → PyDict.get vs v = some t → Shared t ∧ t.name = some name) := by
    intro ts
    induction ts with
    | nil => intro c c' _ hc h; cases h; exact hc
    | cons s ts ih =>
      intro c c' hs hc h
      rw [List.foldlM_cons] at h
      simp only [bind, Except.bind] at h
      cases hreg : Catalog.register c s with
      | error err => rw [hreg] at h; cases h
      | ok c1 =>
        rw [hreg] at h
        refine ih c1 c' (fun x hx => hs x (by simp [hx])) ?_ h
        unfold Catalog.register at hreg
        split at hreg
        · cases hreg
        · split at hreg
          · cases hreg
          · split at hreg
            · cases hreg
            · cases hreg
              intro name vs v t g1 g2
              rw [PyDict.get_set] at g1
              split at g1
              · rename_i hn
                cases g1
                rw [PyDict.get_set] at g2
                split at g2
                · cases g2; exact ⟨hs s (by simp), hn.symm⟩
                · cases hg : PyDict.get c s.name with
                  | none => rw [hg] at g2; simp at g2
                  | some vs0 =>
                    rw [hg] at g2
                    rw [← hn] at hg
                    exact hc name vs0 v t hg g2
              · exact hc name vs v t g1 g2
  exact key history [] c hs (by intro _ _ _ _ h; simp at h) hr name vs v t h1 h2

theorem shared_located {t : SymbolTable} {name : Text} (h : Shared t) (hn : t.name = some name) :
    t.tableType = .shared ∧ ∀ k ∈ t.symbols, k.location.map (·.name) = some name := by
  obtain ⟨nm, version, symbols, imports, h⟩ := h
  have hv : 0 < version := by
    apply Classical.byContradiction; intro hc
    have : version ≤ 0 := by omega
    simp [sharedSymbolTable, new, TableType.isSystem, TableType.isShared, this] at h
  obtain ⟨s, hs, hw, h1, h2, h3, h4, h5, -⟩ := new_shared_spec symbols nm version hv imports false
  rw [sharedSymbolTable, hs] at h; cases h
  rw [h2] at hn; cases hn
  refine ⟨h1, ?_⟩
  intro k hk
  obtain ⟨i, hi, rfl⟩ := List.getElem_of_mem hk
  rw [h5 i hi, h2]; rfl

/-- Whatever a catalog finds for a name is a shared table whose symbols are located in a table of that name. -/
theorem resolve_located {c : Catalog} (h : Registered c) {name : Text} {version maxId : Option Int} {s : SymbolTable}
    (hr : c.resolve name version maxId = .ok s) :
    s.tableType = .shared ∧ ∀ k ∈ s.symbols, k.location.map (·.name) = some name := by
  have mk : ∀ (symbols : List (Option Text)) (version : Int) (b : Bool) (s : SymbolTable),
      new .shared symbols (some name) (some version) none b = .ok s →
      s.tableType = .shared ∧ ∀ k ∈ s.symbols, k.location.map (·.name) = some name := by
    intro symbols version b s h
    have hv : 0 < version := by
      apply Classical.byContradiction; intro hc
      have : version ≤ 0 := by omega
      simp [new, TableType.isSystem, TableType.isShared, this] at h
    obtain ⟨s', hs, hw, h1, h2, h3, h4, h5, -⟩ := new_shared_spec symbols name version hv none b
    rw [hs] at h; cases h
    refine ⟨h1, ?_⟩
    intro k hk
    obtain ⟨i, hi, rfl⟩ := List.getElem_of_mem hk
    rw [h5 i hi, h2]; rfl
  cases version with
  | none => simp [resolve] at hr
  | some version =>
    simp only [resolve] at hr
    split at hr
    · cases hr
    · split at hr
      · cases hr
      · split at hr
        · split at hr
          · cases hr
          · unfold placeholderSymbolTable at hr
            split at hr
            · cases hr
            · split at hr
              · cases hr
              · exact mk _ _ _ _ hr
        · rename_i vs hvs
          have base : ∀ table : SymbolTable, (match PyDict.get vs (some version) with
              | some t => some t
              | none => match maxVersion (PyDict.keys vs) with
                | none => none
                | some k => PyDict.get vs k) = some table → Shared table ∧ table.name = some name := by
            intro table ht
            split at ht
            · rename_i t ht'
              cases ht
              exact registered_get h hvs ht'
            · split at ht
              · cases ht
              · exact registered_get h hvs ht
          split at hr
          · cases hr
          · rename_i table ht
            obtain ⟨h1, h2⟩ := base table ht
            split at hr
            · cases hr; exact shared_located h1 h2
            · split at hr
              · cases hr
              · rename_i m _ _
                unfold substituteSymbolTable at hr
                rw [h2] at hr
                by_cases c1 : (!table.tableType.isShared) = true
                · rw [if_pos c1] at hr; cases hr
                · rw [if_neg c1] at hr
                  by_cases c2 : version ≤ 0
                  · rw [if_pos c2] at hr; cases hr
                  · rw [if_neg c2] at hr
                    by_cases c3 : m < 0
                    · rw [if_pos c3] at hr; cases hr
                    · rw [if_neg c3] at hr
                      exact mk _ _ _ _ hr

end Ion.Catalog

namespace Ion.ManagedReader
open Ion Ion.RawReader Ion.Spec

theorem systemTable_eq : systemTable = SYSTEM_SYMBOL_TOKENS.map (fun k => (k.text, k.location)) := by decide

/-! ## Chunks -/

theorem react_signal (ctx : Context) (h : Option Handler) (e : IonEvent) (he : e.eventType.isStreamSignal = true)
    (hd : e.depth = none) : react ctx h e = .ok (.give ctx h) := by
  cases h <;> simp [react, he, onUser, hd]

/-- What `send` makes of the answer of the underlying reader. -/
def process (ctx : Context) (h : Option Handler) :
    Except PyErr IonEvent × RawReader.Status → Option (Except PyErr Event × Status RawReader.Status)
  | (.error err, _) => some (.error err, .dead)
  | (.ok e, r') => match react ctx h e with
      | .error err => some (.error err, .dead)
      | .ok (.give ctx' h') => some (.ok (thunkEvent ctx' e), .live r' ctx' h')
      | .ok (.ask cmd' ctx' h') => send RawReader.send (.live r' ctx' h') cmd'

theorem send_live (r : RawReader.Status) (ctx : Context) (h : Option Handler) (cmd : Cmd) :
    send RawReader.send (.live r ctx h) cmd = process ctx h (RawReader.send r cmd) := by
  rw [send]
  generalize RawReader.send r cmd = x
  obtain ⟨x, st⟩ := x
  cases x with
  | error err => rfl
  | ok e =>
    simp only [process]
    cases react ctx h e with
    | error err => rfl
    | ok a => cases a <;> rfl

/-- A status that the raw reader can have. -/
def Reached (st : RawReader.Status) : Prop := ∃ opens, StatusOk opens st

theorem reached_send {st st' : RawReader.Status} {cmd : Cmd} {e : IonEvent} (h : Reached st)
    (hs : RawReader.send st cmd = (.ok e, st')) : Reached st' := by
  obtain ⟨opens, h⟩ := h
  rcases send_fits h cmd with ⟨err, h1⟩ | ⟨e', st1, o', h1, -, h2, -⟩
  · rw [h1] at hs; cases hs
  · rw [h1] at hs; cases hs; exact ⟨o', h2⟩

theorem reached_absorb (cs : List Bytes) : ∀ {st st' : RawReader.Status} {e e' : IonEvent} {cs' : List Bytes}, Reached st →
    RawReader.absorb (.ok e, st) cs = (.ok e', st', cs') → Reached st' := by
  induction cs with
  | nil => intro st st' e e' cs' h ha; simp only [RawReader.absorb] at ha; cases ha; exact h
  | cons d ds ih =>
    intro st st' e e' cs' h ha
    simp only [RawReader.absorb] at ha
    split at ha
    · cases hs : RawReader.send st (.data d) with
      | mk r st1 =>
        rw [hs] at ha
        cases r with
        | error err => cases ds <;> simp [RawReader.absorb] at ha
        | ok e1 => exact ih (reached_send h hs) ha
    · cases ha; exact h

theorem reached_pull {st st' : RawReader.Status} {cs cs' : List Bytes} {cmd : Cmd} {e : IonEvent} (h : Reached st)
    (hp : RawReader.pull st cs cmd = (.ok e, st', cs')) : Reached st' := by
  unfold RawReader.pull at hp
  cases hs : RawReader.send st cmd with
  | mk r st1 =>
    rw [hs] at hp
    cases r with
    | error err => cases cs <;> simp [RawReader.absorb] at hp
    | ok e1 => exact reached_absorb cs (reached_send h hs) hp

/-- What `pull` makes of the answer of the underlying reader, once chunks have been sent as needed. -/
def processPull (ctx : Context) (h : Option Handler) :
    Except PyErr IonEvent × RawReader.Status × List Bytes → Option (Except PyErr Event × Status RawReader.Status × List Bytes)
  | (.error err, _, cs) => some (.error err, .dead, cs)
  | (.ok e, r', cs) => match react ctx h e with
      | .error err => some (.error err, .dead, cs)
      | .ok (.give ctx' h') => some (.ok (thunkEvent ctx' e), .live r' ctx' h', cs)
      | .ok (.ask cmd' ctx' h') => pull RawReader.send (.live r' ctx' h') cs cmd'

theorem absorb_error (err : PyErr) (st : Status RawReader.Status) (cs : List Bytes) :
    absorb RawReader.send (some (.error err, st)) cs = some (.error err, st, cs) := by cases cs <;> rfl

theorem rawAbsorb_error (err : PyErr) (st : RawReader.Status) (cs : List Bytes) :
    RawReader.absorb (.error err, st) cs = (.error err, st, cs) := by cases cs <;> rfl

theorem absorb_process (ctx : Context) (h : Option Handler) (cs : List Bytes) :
    ∀ (r : Except PyErr IonEvent × RawReader.Status),
    (∀ e, r.1 = .ok e → e.eventType.isStreamSignal = true → e.depth = none ∧ Reached r.2) →
    absorb RawReader.send (process ctx h r) cs = processPull ctx h (RawReader.absorb r cs) := by
  induction cs with
  | nil =>
    rintro ⟨r, st⟩ hr
    cases r with
    | error err => rfl
    | ok e =>
      simp only [process, RawReader.absorb, processPull]
      cases react ctx h e with
      | error err => rfl
      | ok a => cases a <;> rfl
  | cons d ds ih =>
    rintro ⟨r, st⟩ hr
    cases r with
    | error err => rfl
    | ok e =>
      by_cases hs : e.eventType.isStreamSignal = true
      · obtain ⟨h1, h2⟩ := hr e rfl hs
        simp only [process, react_signal ctx h e hs h1, RawReader.absorb, hs, if_true, absorb, thunkEvent]
        rw [send_live]
        apply ih
        intro e' he' hs'
        cases hsd : RawReader.send st (.data d) with
        | mk r1 st1 =>
          rw [hsd] at he'
          simp only at he'
          subst he'
          obtain ⟨opens, ho⟩ := id h2
          refine ⟨?_, reached_send h2 hsd⟩
          rcases send_signal ho hsd hs' with rfl | rfl <;> rfl
      · simp only [process, RawReader.absorb, hs, Bool.false_eq_true, if_false, processPull]
        cases react ctx h e with
        | error err => rfl
        | ok a =>
          cases a with
          | ask => rfl
          | give => simp [absorb, thunkEvent, hs]

/-- The managed reader with chunked input works on the events that the raw reader with chunked input delivers. -/
theorem pull_live {st : RawReader.Status} (hst : Reached st) (ctx : Context) (h : Option Handler) (cs : List Bytes) (cmd : Cmd) :
    pull RawReader.send (.live st ctx h) cs cmd = processPull ctx h (RawReader.pull st cs cmd) := by
  unfold pull
  rw [send_live]
  refine absorb_process ctx h cs _ ?_
  intro e he hs
  cases hsd : RawReader.send st cmd with
  | mk r1 st1 =>
    rw [hsd] at he
    simp only at he
    subst he
    obtain ⟨opens, ho⟩ := id hst
    refine ⟨?_, reached_send hst hsd⟩
    rcases send_signal ho hsd hs with rfl | rfl <;> rfl

/-! ## The underlying reader on a complete document -/

section
variable {doc : Bytes} {all : List Top}

/-- The raw reader is at the place `c` of a document all of which will arrive. -/
def At (doc : Bytes) (all : List Top) (st : RawReader.Status) (cs : List Bytes) (c : Cursor) : Prop :=
  Sees doc all [] st cs c ∧ Reached st

theorem raw_next {st : RawReader.Status} {cs : List Bytes} {c c' : Cursor} {e : IonEvent} (h : At doc all st cs c)
    (hn : c.next = some (e, c')) :
    ∃ st' cs', RawReader.pull st cs .next = (.ok e, st', cs') ∧ At doc all st' cs' c' := by
  rcases pull_next h.1 with ⟨e1, c1, st', cs', h1, h2, h3, -⟩ | ⟨h1, -⟩ | ⟨⟨h1, h2, -⟩, -⟩
  · rw [hn] at h1; cases h1
    exact ⟨st', cs', h2, h3, reached_pull h.2 h2⟩
  · exact absurd rfl h1
  · have := h2 rfl
    obtain ⟨ls, ts⟩ := c
    simp only at h1 this
    subst h1; subst this
    simp [Cursor.next] at hn

theorem raw_end {st : RawReader.Status} {cs : List Bytes} {c : Cursor} (h : At doc all st cs c)
    (hn : c.next = none) :
    ∃ st', RawReader.pull st cs .next = (.ok ION_STREAM_END_EVENT, st', []) ∧ Waiting st' ∧ Reached st' := by
  rcases pull_next h.1 with ⟨e1, c1, st', cs', h1, h2, h3, -⟩ | ⟨h1, -⟩ | ⟨-, st', h1, h2⟩
  · rw [hn] at h1; cases h1
  · exact absurd rfl h1
  · exact ⟨st', h2, h1, reached_pull h.2 h2⟩

theorem raw_skip {st : RawReader.Status} {cs : List Bytes} {c c' : Cursor} {e : IonEvent} (h : At doc all st cs c)
    (hn : c.skip = some (e, c')) :
    ∃ st' cs', RawReader.pull st cs .skip = (.ok e, st', cs') ∧ At doc all st' cs' c' := by
  rcases pull_skip h.1 with ⟨e1, c1, st', cs', h1, h2, h3, -⟩ | ⟨h1, -⟩ | ⟨h1, -⟩
  · rw [hn] at h1; cases h1
    exact ⟨st', cs', h2, h3, reached_pull h.2 h2⟩
  · exact absurd rfl h1
  · rw [hn] at h1; cases h1

theorem raw_skip_none {st : RawReader.Status} {cs : List Bytes} {c : Cursor} (h : At doc all st cs c)
    (hn : c.skip = none) : RawReader.pull st cs .skip = (.error .typeError, .dead, cs) := by
  rcases pull_skip h.1 with ⟨e1, c1, st', cs', h1, h2, h3, -⟩ | ⟨h1, -⟩ | ⟨-, h2⟩
  · rw [hn] at h1; cases h1
  · exact absurd rfl h1
  · exact h2

/-- The reader goes on by itself. -/
theorem ask_next {st : RawReader.Status} {cs : List Bytes} {c c' : Cursor} {e : IonEvent} {ctx ctx' : Context}
    {h h' : Option Handler} {cmd : Cmd} (hat : At doc all st cs c) (hn : c.next = some (e, c'))
    (hr : react ctx h e = .ok (.ask cmd ctx' h')) :
    ∃ st' cs', At doc all st' cs' c' ∧
      pull RawReader.send (.live st ctx h) cs .next = pull RawReader.send (.live st' ctx' h') cs' cmd := by
  obtain ⟨st', cs', h1, h2⟩ := raw_next hat hn
  refine ⟨st', cs', h2, ?_⟩
  rw [pull_live hat.2, h1]
  simp only [processPull, hr]

/-- An exception. -/
theorem fail_next {st : RawReader.Status} {cs : List Bytes} {c c' : Cursor} {e : IonEvent} {ctx : Context}
    {h : Option Handler} {err : PyErr} (hat : At doc all st cs c) (hn : c.next = some (e, c'))
    (hr : react ctx h e = .error err) :
    ∃ cs', pull RawReader.send (.live st ctx h) cs .next = some (.error err, .dead, cs') := by
  obtain ⟨st', cs', h1, h2⟩ := raw_next hat hn
  refine ⟨cs', ?_⟩
  rw [pull_live hat.2, h1]
  simp only [processPull, hr]

/-- A container inside a local symbol table is skipped. -/
theorem skip_over {st : RawReader.Status} {cs : List Bytes} {ls : List (CType × List (Node Nat))} {ts : List Top}
    {ty ty' : CType} {ns items : List (Node Nat)} {f : Option Nat} {a : List Nat} {ctx : Context} {h : Handler}
    (hat : At doc all st cs ⟨(ty, .cont f a ty' items :: ns) :: ls, ts⟩) (hsk : h.skipping = false)
    (hr : react ctx (some h) ((Node.cont f a ty' items).event (ls.length + 1)) = .ok (.ask .skip ctx (some { h with skipping := true }))) :
    ∃ st' cs', At doc all st' cs' ⟨(ty, ns) :: ls, ts⟩ ∧
      pull RawReader.send (.live st ctx (some h)) cs .next = pull RawReader.send (.live st' ctx (some h)) cs' .next := by
  obtain ⟨st1, cs1, h1, h2⟩ := ask_next hat (c' := ⟨(ty', items) :: (ty, ns) :: ls, ts⟩) rfl hr
  obtain ⟨st2, cs2, h3, h4⟩ := raw_skip h1 (c' := ⟨(ty, ns) :: ls, ts⟩) rfl
  refine ⟨st2, cs2, h4, ?_⟩
  rw [h2, pull_live h1.2, h3]
  have : ({ h with skipping := false } : Handler) = h := by obtain ⟨p, s, x, y⟩ := h; simp only at hsk; subst hsk; rfl
  simp [processPull, react, handle, endEvent, IonEventType.isStreamSignal, this]

/-! ## The handlers -/

/-- The context has the table `t`. -/
structure Means (ctx : Context) (t : Table) : Prop where
  wf : ctx.table.WF
  contents : ctx.table.contents = t
  kind : (ctx.table.tableType = .system ∧ t = systemTable) ∨
    (ctx.table.tableType = .local ∧ t.take 9 = systemTable)

theorem means_system (c : Catalog) : Means { catalog := c } systemTable := by
  have hsid : ∀ i : Fin SYSTEM_SYMBOL_TABLE.symbols.length, (SYSTEM_SYMBOL_TABLE.symbols[i]).sid = some (i.val + 1) := by decide
  refine ⟨⟨rfl, ?_, ?_⟩, ?_, .inl ⟨rfl, rfl⟩⟩
  rotate_left 2
  · show SYSTEM_SYMBOL_TABLE.contents = systemTable
    decide
  · show ∀ i (h : i < SYSTEM_SYMBOL_TABLE.symbols.length), (SYSTEM_SYMBOL_TABLE.symbols[i]).sid = some (i + 1)
    exact fun i h => hsid ⟨i, h⟩
  · have := SymbolTable.wf_system .system (some TEXT_ION) (some 1) false
    exact this.1.mapping

theorem resolve_sid {ctx : Context} {t : Table} (h : Means ctx t) (n : Nat) : ctx.resolve (sidToken n) = t.find n := by
  simp only [Context.resolve, sidToken, Table.find]
  by_cases h0 : n = 0
  · subst h0; simp [SymbolTable.getSid, SYMBOL_ZERO_TOKEN]
  · rw [if_neg h0, ← h.contents]
    simp only [SymbolTable.contents, List.getElem?_map]
    by_cases hle : n ≤ ctx.table.maxId
    · obtain ⟨h1, h2⟩ := h.wf.getSid_eq n (by omega) hle none
      obtain ⟨k, hk⟩ := Option.isSome_iff_exists.1 h2
      have hm := h.wf.maxId
      have hs := h.wf.sids (n - 1) (by omega)
      rw [List.getElem?_eq_getElem (by omega)] at hk
      cases hk
      rw [h1, List.getElem?_eq_getElem (by omega)]
      simp only [Option.map_some]
      congr 1
      generalize ctx.table.symbols[n - 1]'(by omega) = k at hs
      obtain ⟨a, b, c⟩ := k
      simp only at hs
      subst hs
      simp; omega
    · have hm := h.wf.maxId
      rw [List.getElem?_eq_none (by omega)]
      have : ctx.table.getSid n none = none := by
        unfold SymbolTable.getSid
        rw [if_neg (by omega), if_pos (by simp; omega)]
      rw [this]; rfl

theorem fieldThunk_eq {ctx : Context} {t : Table} (h : Means ctx t) (f : Option Nat) :
    fieldThunk ctx (f.map sidToken) = t.field f := by
  cases f with
  | none => rfl
  | some n =>
    simp only [Option.map_some, fieldThunk, resolve_sid h, Table.field, bind, Except.bind, pure, Except.pure]
    cases t.find n <;> rfl

theorem annotationsThunk_eq {ctx : Context} {t : Table} (h : Means ctx t) (a : List Nat) :
    annotationsThunk ctx (a.map sidToken) = t.findAll a := by
  induction a with
  | nil => rfl
  | cons n ns ih =>
    simp only [List.map_cons, annotationsThunk, resolve_sid h, Table.findAll, bind, Except.bind, pure, Except.pure, ih]
    cases t.find n <;> cases t.findAll ns <;> rfl

theorem resolveValue_sid {ctx : Context} {t : Table} (h : Means ctx t) (n : Nat) :
    ctx.resolveValue (.sym ⟨none, some n, none⟩) = t.find n := resolve_sid h n

theorem thunkEvent_node {ctx : Context} {t : Table} (h : Means ctx t) (n : Node Nat) (d : Nat) :
    thunkEvent ctx (n.event d) = n.seen t d := by
  cases n with
  | cont f a ty items =>
    simp [thunkEvent, Node.event, Node.seen, fieldThunk_eq h, annotationsThunk_eq h, valueThunk]
  | scalar f a x =>
    have : valueThunk ctx (Node.event d (.scalar f a x)) = t.value x := by
      simp only [valueThunk, Node.event]
      cases x <;> simp [pyValue, Table.value, Scalar.ty, pure, Except.pure]
      rename_i n
      rw [resolveValue_sid h]
      cases t.find n <;> simp [bind, Except.bind, Except.pure]
    simp only [thunkEvent, this]
    simp [Node.event, Node.seen, fieldThunk_eq h, annotationsThunk_eq h]

theorem thunkEvent_end (ctx : Context) (d : Nat) (ty : CType) : thunkEvent ctx (endEvent d ty) = endSeen d ty := rfl

/-- The list `symbols`: what the code takes from it. -/
def taken : Node Nat → Option (Option Text)
  | .scalar _ _ (.string s) => some (some s)
  | .scalar _ _ (.null .string) => some none
  | _ => none

theorem symbols_loop {ls : List (CType × List (Node Nat))} {ts : List Top} {ctx : Context} (items : List (Node Nat)) :
    ∀ {st : RawReader.Status} {cs : List Bytes} {syms : List (Option Text)} {imps : Option (List SymbolTable)},
    At doc all st cs ⟨(.list, items) :: ls, ts⟩ →
    ∃ st' cs', At doc all st' cs' ⟨ls, ts⟩ ∧
      pull RawReader.send (.live st ctx (some ⟨.symbols, false, syms, imps⟩)) cs .next
        = pull RawReader.send (.live st' ctx (some ⟨.table, false, syms ++ items.filterMap taken, imps⟩)) cs' .next := by
  induction items with
  | nil =>
    intro st cs syms imps hat
    have := ask_next hat rfl (ctx := ctx) (ctx' := ctx) (cmd := .next) (h := some ⟨.symbols, false, syms, imps⟩)
      (h' := some ⟨.table, false, syms, imps⟩) rfl
    simpa using this
  | cons n ns ih =>
    intro st cs syms imps hat
    cases n with
    | cont f a ty ch =>
      obtain ⟨st1, cs1, h1, h2⟩ := skip_over hat (ctx := ctx) (h := ⟨.symbols, false, syms, imps⟩) rfl rfl
      obtain ⟨st2, cs2, h3, h4⟩ := ih h1 (syms := syms) (imps := imps)
      exact ⟨st2, cs2, h3, h2.trans h4⟩
    | scalar f a x =>
      have hr : react ctx (some ⟨.symbols, false, syms, imps⟩) ((Node.scalar f a x).event (ls.length + 1))
          = .ok (.ask .next ctx (some ⟨.symbols, false, syms ++ (taken (.scalar f a x)).toList, imps⟩)) := by
        cases x <;> simp [react, handle, onSymbols, Node.event, IonEventType.isStreamSignal, taken, Scalar.ty, pyValue, stringValue]
        rename_i ty
        cases ty <;> simp [taken]
      obtain ⟨st1, cs1, h1, h2⟩ := ask_next hat rfl hr
      obtain ⟨st2, cs2, h3, h4⟩ := ih h1 (syms := syms ++ (taken (.scalar f a x)).toList) (imps := imps)
      refine ⟨st2, cs2, h3, ?_⟩
      have hl : syms ++ (taken (.scalar f a x)).toList ++ ns.filterMap taken = syms ++ (Node.scalar f a x :: ns).filterMap taken := by
        cases ht : taken (.scalar f a x) <;> simp [List.filterMap_cons, ht]
      rw [← hl]
      exact h2.trans h4

/-- The request of `i` in the model. -/
def toDesc (i : Import) : ImportDesc := ⟨i.name, i.version, i.maxId⟩

/-- The reader raises. -/
def Fails (st : RawReader.Status) (ctx : Context) (h : Option Handler) (cs : List Bytes) (err : PyErr) : Prop :=
  ∃ cs', pull RawReader.send (.live st ctx h) cs .next = some (.error err, .dead, cs')

/-- The reader gets, by itself, to the place `c`. -/
def Goes (doc : Bytes) (all : List Top) (st : RawReader.Status) (ctx : Context) (h : Option Handler) (cs : List Bytes) (c : Cursor)
    (ctx' : Context) (h' : Option Handler) : Prop :=
  ∃ st' cs', At doc all st' cs' c ∧
    pull RawReader.send (.live st ctx h) cs .next = pull RawReader.send (.live st' ctx' h') cs' .next

theorem desc_scalar {ctx : Context} {t : Table} (hm : Means ctx t) (i : Import) (f : Nat) (a : List Nat) (x : Scalar Nat) (d : Nat)
    (syms : List (Option Text)) (imps : Option (List SymbolTable)) :
    react ctx (some ⟨.desc (toDesc i), false, syms, imps⟩) ((Node.scalar (some f) a x).event d)
      = match i.field t (.scalar (some f) a x) with
        | .error err => .error err
        | .ok i' => .ok (.ask .next ctx (some ⟨.desc (toDesc i'), false, syms, imps⟩)) := by
  simp only [react, Node.event, IonEventType.isStreamSignal, handle, onDesc, Bool.false_eq_true, if_false, reduceCtorEq,
    Option.map_some, resolve_sid hm, Import.field, Table.text, bind, Except.bind, pure, Except.pure]
  cases t.find f with
  | error err => rfl
  | ok k =>
    simp only []
    by_cases h1 : k.text = some TEXT_NAME
    · simp only [setDesc, h1, true_and, if_true]
      cases x <;> simp [Scalar.ty, pyValue, stringValue, toDesc, TEXT_NAME, TEXT_VERSION, TEXT_MAX_ID]
      rename_i ty
      cases ty <;> simp [TEXT_NAME, TEXT_VERSION, TEXT_MAX_ID]
    · by_cases h2 : k.text = some TEXT_VERSION
      · simp only [setDesc, h2, true_and, if_true]
        cases x <;> simp [Scalar.ty, pyValue, intValue, toDesc, TEXT_NAME, TEXT_VERSION, TEXT_MAX_ID]
        rename_i ty
        cases ty <;> simp [TEXT_NAME, TEXT_VERSION, TEXT_MAX_ID]
      · by_cases h3 : k.text = some TEXT_MAX_ID
        · simp only [setDesc, h3, true_and, if_true]
          cases x <;> simp [Scalar.ty, pyValue, intValue, toDesc, TEXT_NAME, TEXT_VERSION, TEXT_MAX_ID]
          rename_i ty
          cases ty <;> simp [TEXT_NAME, TEXT_VERSION, TEXT_MAX_ID]
        · simp [setDesc, h1, h2, h3]

theorem desc_loop {ls : List (CType × List (Node Nat))} {ts : List Top} {ctx : Context} {t : Table} (hm : Means ctx t)
    {syms : List (Option Text)} {imps : Option (List SymbolTable)} (dfs : List (Node Nat)) :
    ∀ {st : RawReader.Status} {cs : List Bytes} {i : Import}, At doc all st cs ⟨(.struct, dfs) :: ls, ts⟩ →
    match Import.fields t i dfs with
    | .error err => Fails st ctx (some ⟨.desc (toDesc i), false, syms, imps⟩) cs err
    | .ok i' => match i'.name with
      | none => Goes doc all st ctx (some ⟨.desc (toDesc i), false, syms, imps⟩) cs ⟨ls, ts⟩ ctx (some ⟨.imports, false, syms, imps⟩)
      | some name => match ctx.catalog.resolve name i'.version i'.maxId with
        | .error err => Fails st ctx (some ⟨.desc (toDesc i), false, syms, imps⟩) cs err
        | .ok s => Goes doc all st ctx (some ⟨.desc (toDesc i), false, syms, imps⟩) cs ⟨ls, ts⟩ ctx
            (some ⟨.imports, false, syms, some (imps.getD [] ++ [s])⟩) := by
  induction dfs with
  | nil =>
    intro st cs i hat
    simp only [Import.fields]
    have hr : react ctx (some ⟨.desc (toDesc i), false, syms, imps⟩) (endEvent ls.length .struct)
        = match endDesc ctx ⟨.desc (toDesc i), false, syms, imps⟩ (toDesc i) with
          | .error err => .error err
          | .ok (.ask cmd hd') => .ok (.ask cmd ctx (some hd'))
          | .ok (.done ctx') => .ok (.ask .next ctx' none) := rfl
    cases hn : i.name with
    | none =>
      simp only [endDesc, toDesc, hn] at hr ⊢
      exact ask_next hat rfl hr
    | some name =>
      simp only [endDesc, toDesc, hn] at hr ⊢
      cases hc : ctx.catalog.resolve name i.version i.maxId with
      | error err => rw [hc] at hr; exact fail_next hat rfl hr
      | ok s => rw [hc] at hr; exact ask_next hat rfl hr
  | cons n ns ih =>
    intro st cs i hat
    cases n with
    | cont f a ty ch =>
      obtain ⟨st1, cs1, h1, h2⟩ := skip_over hat (ctx := ctx) (h := ⟨.desc (toDesc i), false, syms, imps⟩) rfl rfl
      have := ih h1 (i := i)
      simp only [Import.fields, Import.field, bind, Except.bind, Fails, Goes] at this ⊢
      rw [h2]; exact this
    | scalar f a x =>
      cases f with
      | none => exact fail_next hat rfl rfl
      | some f =>
        have hr := desc_scalar hm i f a x (ls.length + 1) syms imps
        simp only [Import.fields, bind, Except.bind]
        cases hf : i.field t (.scalar (some f) a x) with
        | error err => rw [hf] at hr; exact fail_next hat rfl hr
        | ok i' =>
          rw [hf] at hr
          obtain ⟨st1, cs1, h1, h2⟩ := ask_next hat rfl hr
          have := ih h1 (i := i')
          simp only [Fails, Goes] at this ⊢
          rw [h2]; exact this

/-- The tables that the list `imports` asks for. -/
def importTables (catalog : Catalog) (t : Table) : List (Node Nat) → Except PyErr (List SymbolTable)
  | [] => .ok []
  | .cont _ _ .struct fields :: ns => do
    let i ← Import.fields t {} fields
    match i.name with
    | none => importTables catalog t ns
    | some name => do
      let s ← catalog.resolve name i.version i.maxId
      let rest ← importTables catalog t ns
      pure (s :: rest)
  | _ :: ns => importTables catalog t ns

theorem importAll_eq (catalog : Catalog) (t : Table) (items : List (Node Nat)) :
    importAll catalog t items = (importTables catalog t items).map (fun l => l.flatMap SymbolTable.contents) := by
  induction items with
  | nil => rfl
  | cons n ns ih =>
    cases n with
    | scalar f a x => simp only [importAll, importTables, ih]
    | cont f a ty fields =>
      cases ty with
      | list => simp only [importAll, importTables, ih]
      | sexp => simp only [importAll, importTables, ih]
      | struct =>
        simp only [importAll, importTables, bind, Except.bind, pure, Except.pure, ih]
        cases Import.fields t {} fields with
        | error err => rfl
        | ok i =>
          simp only [Import.table, bind, Except.bind, pure, Except.pure]
          cases i.name with
          | none =>
            simp only [List.nil_append]
            cases importTables catalog t ns <;> rfl
          | some name =>
            simp only []
            cases catalog.resolve name i.version i.maxId with
            | error err => rfl
            | ok s => cases importTables catalog t ns <;> simp [Except.map, SymbolTable.contents]

theorem imports_loop {ls : List (CType × List (Node Nat))} {ts : List Top} {ctx : Context} {t : Table} (hm : Means ctx t)
    {syms : List (Option Text)} (items : List (Node Nat)) :
    ∀ {st : RawReader.Status} {cs : List Bytes} {tabs : List SymbolTable}, At doc all st cs ⟨(.list, items) :: ls, ts⟩ →
    match importTables ctx.catalog t items with
    | .error err => Fails st ctx (some ⟨.imports, false, syms, some tabs⟩) cs err
    | .ok more => Goes doc all st ctx (some ⟨.imports, false, syms, some tabs⟩) cs ⟨ls, ts⟩ ctx
        (some ⟨.table, false, syms, some (tabs ++ more)⟩) := by
  induction items with
  | nil =>
    intro st cs tabs hat
    simp only [importTables, List.append_nil]
    exact ask_next hat rfl rfl
  | cons n ns ih =>
    intro st cs tabs hat
    cases n with
    | scalar f a x =>
      obtain ⟨st1, cs1, h1, h2⟩ := ask_next hat rfl (ctx := ctx) (h := some ⟨.imports, false, syms, some tabs⟩)
        (ctx' := ctx) (h' := some ⟨.imports, false, syms, some tabs⟩) (cmd := .next) rfl
      have := ih h1 (tabs := tabs)
      simp only [importTables, Fails, Goes] at this ⊢
      rw [h2]; exact this
    | cont f a ty fields =>
      by_cases hty : ty = .struct
      · subst hty
        obtain ⟨st1, cs1, h1, h2⟩ := ask_next hat rfl (ctx := ctx) (h := some ⟨.imports, false, syms, some tabs⟩)
          (ctx' := ctx) (h' := some ⟨.desc (toDesc {}), false, syms, some tabs⟩) (cmd := .next) rfl
        have hd := desc_loop hm (syms := syms) (imps := some tabs) fields h1 (i := {})
        simp only [importTables, bind, Except.bind, pure, Except.pure]
        cases hi : Import.fields t {} fields with
        | error err => rw [hi] at hd; simp only [Fails] at hd ⊢; rw [h2]; exact hd
        | ok i =>
          rw [hi] at hd
          simp only at hd ⊢
          cases hn : i.name with
          | none =>
            rw [hn] at hd
            obtain ⟨st2, cs2, h3, h4⟩ := hd
            have := ih h3 (tabs := tabs)
            simp only [Fails, Goes] at this ⊢
            rw [h2, h4]; exact this
          | some name =>
            rw [hn] at hd
            simp only at hd ⊢
            cases hc : ctx.catalog.resolve name i.version i.maxId with
            | error err => rw [hc] at hd; simp only [Fails] at hd ⊢; rw [h2]; exact hd
            | ok s =>
              rw [hc] at hd
              obtain ⟨st2, cs2, h3, h4⟩ := hd
              have := ih h3 (tabs := tabs ++ [s])
              simp only [Option.getD_some] at h4
              simp only [Fails, Goes] at this ⊢
              rw [h2, h4]
              cases hmore : importTables ctx.catalog t ns with
              | error err => rw [hmore] at this; exact this
              | ok more => rw [hmore] at this; simpa using this
      · obtain ⟨st1, cs1, h1, h2⟩ := skip_over hat (ctx := ctx) (h := ⟨.imports, false, syms, some tabs⟩) rfl
          (by cases ty <;> first | rfl | exact absurd rfl hty)
        have := ih h1 (tabs := tabs)
        have he : importTables ctx.catalog t (.cont f a ty fields :: ns) = importTables ctx.catalog t ns := by
          cases ty <;> first | rfl | exact absurd rfl hty
        rw [he]
        simp only [Fails, Goes] at this ⊢
        rw [h2]; exact this

/-- A shared table. -/
def Foreign (s : SymbolTable) : Prop := s.tableType = .shared

/-- What the handler has noted about the imports. -/
inductive Noted (ctx : Context) (t : Table) : Option (List SymbolTable) → Table → Prop
  | none : Noted ctx t none systemTable
  | inherit : ctx.table.tableType = .local → (∀ m ∈ t.drop 9, m.2.map (·.name) ≠ some TEXT_ION) → Noted ctx t (some [ctx.table]) t
  | list (tabs : List SymbolTable) : (∀ s ∈ tabs, Foreign s) →
      Noted ctx t (some tabs) (systemTable ++ tabs.flatMap SymbolTable.contents)

theorem foreign_importable {s : SymbolTable} (h : Foreign s) :
    (s.symbols.filter fun k => SymbolTable.importable s k).map (fun k => (k.text, k.location)) = s.contents := by
  have : s.symbols.filter (fun k => SymbolTable.importable s k) = s.symbols := by
    rw [List.filter_eq_self]
    intro k _
    simp [SymbolTable.importable, show s.tableType = .shared from h, TableType.isLocal]
  rw [this]; rfl

theorem local_importable {ctx : Context} {t : Table} (h : Means ctx t) (hl : ctx.table.tableType = .local)
    (h3 : ∀ m ∈ t.drop 9, m.2.map (·.name) ≠ some TEXT_ION) :
    (ctx.table.symbols.filter fun k => SymbolTable.importable ctx.table k).map (fun k => (k.text, k.location)) = t.drop 9 := by
  obtain ⟨h1, h2⟩ : ctx.table.tableType = .local ∧ t.take 9 = systemTable := by
    rcases h.kind with ⟨hk, -⟩ | hk
    · rw [hk] at hl; cases hl
    · exact hk
  have hf : (ctx.table.symbols.filter fun k => SymbolTable.importable ctx.table k).map (fun k => (k.text, k.location))
      = t.filter (fun m => m.2.all (fun l => l.name ≠ TEXT_ION)) := by
    rw [← h.contents, SymbolTable.contents, List.filter_map]
    congr 1
    apply List.filter_congr
    intro k _
    simp [SymbolTable.importable, hl, TableType.isLocal]
  rw [hf]
  conv => lhs; rw [← List.take_append_drop 9 t]
  rw [List.filter_append, h2]
  have e1 : systemTable.filter (fun m => m.2.all (fun l => l.name ≠ TEXT_ION)) = [] := by decide
  have e2 : (t.drop 9).filter (fun m => m.2.all (fun l => l.name ≠ TEXT_ION)) = t.drop 9 := by
    rw [List.filter_eq_self]
    intro m hmem
    have := h3 m hmem
    cases hl : m.2 with
    | none => rfl
    | some l => rw [hl] at this; simpa using this
  rw [e1, e2]; rfl

theorem new_table {ctx : Context} {t : Table} (hm : Means ctx t) {imps : Option (List SymbolTable)} {base : Table}
    (hn : Noted ctx t imps base) (syms : List (Option Text)) :
    ∃ T, SymbolTable.new .local syms (imports := imps) = .ok T ∧
      Means ⟨ctx.catalog, T⟩ (base ++ syms.map fun s => (s, none)) := by
  obtain ⟨T, h1, h2, h3, -, -, -, h4⟩ := SymbolTable.new_local_spec syms imps false
  refine ⟨T, h1, h2, ?_, .inr ⟨h3, ?_⟩⟩
  · show T.contents = _
    rw [h4]
    congr 1
    rw [← systemTable_eq]
    cases hn with
    | none => simp
    | inherit hl hion =>
      have h9 : t.take 9 = systemTable := by
        rcases hm.kind with ⟨hk, -⟩ | hk
        · rw [hk] at hl; cases hl
        · exact hk.2
      simp only [Option.getD_some, List.flatMap_cons, List.flatMap_nil, List.append_nil, local_importable hm hl hion]
      rw [← h9, List.take_append_drop]
    | list tabs hs =>
      simp only [Option.getD_some]
      congr 1
      simp only [List.flatMap_def]
      congr 1
      apply List.map_congr_left
      intro s hmem
      exact foreign_importable (hs s hmem)
  · have hsl : systemTable.length = 9 := by decide
    cases hn with
    | none => rw [List.take_left' hsl]
    | inherit hl hion =>
      rcases hm.kind with ⟨hk, -⟩ | ⟨-, hk1⟩
      · rw [hk] at hl; cases hl
      · have hlen : 9 ≤ t.length := by
          have := congrArg List.length hk1
          rw [List.length_take, hsl] at this; omega
        rw [List.take_append_of_le_length hlen, hk1]
    | list tabs hs =>
      rw [List.append_assoc, List.take_left' hsl]

theorem taken_declared {items : List (Node Nat)} (h : ∀ n ∈ items, ∃ g a x, n = .scalar g a x ∧ x.ty = .string) :
    items.filterMap taken = items.map declared := by
  induction items with
  | nil => rfl
  | cons n ns ih =>
    obtain ⟨g, a, x, rfl, hx⟩ := h n (by simp)
    have := ih (fun m hm => h m (by simp [hm]))
    cases x <;> simp [Scalar.ty] at hx
    · subst hx; simp [taken, declared, this]
    · simp [taken, declared, this]

theorem importTables_foreign {c : Catalog} (hc : Catalog.Registered c) {t : Table} {items : List (Node Nat)} :
    ∀ {tabs : List SymbolTable}, importTables c t items = .ok tabs → ∀ s ∈ tabs, Foreign s := by
  induction items with
  | nil => intro tabs h; cases h; simp
  | cons n ns ih =>
    have ih' := @ih
    intro tabs ht
    cases n with
    | scalar f a x => exact ih' ht
    | cont f a ty fields =>
      cases ty with
      | list => exact ih' ht
      | sexp => exact ih' ht
      | struct =>
        simp only [importTables, bind, Except.bind, pure, Except.pure] at ht
        cases hi : Import.fields t {} fields with
        | error err => rw [hi] at ht; cases ht
        | ok i =>
          rw [hi] at ht
          simp only at ht
          cases hn : i.name with
          | none => rw [hn] at ht; exact ih' ht
          | some name =>
            rw [hn] at ht
            simp only at ht
            cases hr : c.resolve name i.version i.maxId with
            | error err => rw [hr] at ht; cases ht
            | ok s =>
              rw [hr] at ht
              simp only at ht
              cases hm : importTables c t ns with
              | error err => rw [hm] at ht; cases ht
              | ok more =>
                rw [hm] at ht
                cases ht
                intro s' hs'
                rcases List.mem_cons.1 hs' with rfl | hs'
                · exact (Catalog.resolve_located hc hr).1
                · exact ih' hm s' hs'

theorem fieldText_eq (t : Table) (f : Option Nat) : t.fieldText f = (t.field f).map (fun k => k.bind (·.text)) := by
  cases f with
  | none => rfl
  | some f =>
    simp only [Table.fieldText, Table.text, Table.field, bind, Except.bind, pure, Except.pure]
    cases t.find f <;> rfl

/-- What the handler does with an event of a local symbol table (other than the end), by the text of the field name. -/
theorem react_table {ctx : Context} {t : Table} (hm : Means ctx t) (n : Node Nat) (d : Nat) (syms : List (Option Text))
    (imps : Option (List SymbolTable)) :
    react ctx (some ⟨.table, false, syms, imps⟩) (n.event d) =
      match t.fieldText n.field with
      | .error err => .error err
      | .ok name => match n with
        | .cont _ _ ty _ =>
          if name = some TEXT_SYMBOLS ∧ ty = .list then .ok (.ask .next ctx (some ⟨.symbols, false, syms, imps⟩))
          else if name = some TEXT_IMPORTS ∧ ty = .list then .ok (.ask .next ctx (some ⟨.imports, false, syms, some []⟩))
          else .ok (.ask .skip ctx (some ⟨.table, true, syms, imps⟩))
        | .scalar _ _ x =>
          if x.ty = .symbol ∧ name = some TEXT_IMPORTS then
            match inheritTable ctx ⟨.table, false, syms, imps⟩ (n.event d) with
            | .error err => .error err
            | .ok (.ask cmd hd') => .ok (.ask cmd ctx (some hd'))
            | .ok (.done ctx') => .ok (.ask .next ctx' none)
          else .ok (.ask .next ctx (some ⟨.table, false, syms, imps⟩)) := by
  rw [fieldText_eq]
  cases n with
  | cont f a ty items =>
    simp only [react, Node.event, IonEventType.isStreamSignal, handle, onTable, Bool.false_eq_true, if_false, reduceCtorEq,
      fieldThunk_eq hm, Node.field, if_true]
    cases t.field f with
    | error err => rfl
    | ok k =>
      simp only [Except.map]
      have : (some ty.ty = some IonType.list) ↔ ty = .list := by cases ty <;> simp [CType.ty]
      simp only [this]
      by_cases h1 : (k.bind fun x => x.text) = some TEXT_SYMBOLS ∧ ty = .list
      · rw [if_pos h1, if_pos h1]
      · rw [if_neg h1, if_neg h1]
        by_cases h2 : (k.bind fun x => x.text) = some TEXT_IMPORTS ∧ ty = .list
        · rw [if_pos h2, if_pos h2]
        · rw [if_neg h2, if_neg h2]
  | scalar f a x =>
    simp only [react, Node.event, IonEventType.isStreamSignal, handle, onTable, Bool.false_eq_true, if_false, reduceCtorEq,
      fieldThunk_eq hm, Node.field, if_true]
    cases t.field f with
    | error err => rfl
    | ok k =>
      simp only [Except.map, Option.some.injEq]
      by_cases h1 : x.ty = .symbol ∧ (k.bind fun x => x.text) = some TEXT_IMPORTS
      · rw [if_pos h1, if_pos h1]
        cases inheritTable ctx ⟨.table, false, syms, imps⟩ (Node.event d (.scalar f a x)) with
        | error err => rfl
        | ok r => cases r <;> rfl
      · rw [if_neg h1, if_neg h1]

theorem table_loop {ts : List Top} {ctx : Context} {t : Table} (hm : Means ctx t) (hc : Catalog.Registered ctx.catalog)
    (fields : List (Node Nat)) :
    ∀ {st : RawReader.Status} {cs : List Bytes} {d : Draft} {imps : Option (List SymbolTable)},
    At doc all st cs ⟨[(.struct, fields)], ts⟩ → Noted ctx t imps d.base → (∀ m ∈ fields, PlainField t m) →
    match Draft.fields ctx.catalog t d fields with
    | .error err => Fails st ctx (some ⟨.table, false, d.symbols, imps⟩) cs err
    | .ok d' => ∃ ctx', Means ctx' d'.table ∧ ctx'.catalog = ctx.catalog ∧
        Goes doc all st ctx (some ⟨.table, false, d.symbols, imps⟩) cs ⟨[], ts⟩ ctx' none := by
  induction fields with
  | nil =>
    intro st cs d imps hat hn _
    simp only [Draft.fields]
    obtain ⟨T, h1, h2⟩ := new_table hm hn d.symbols
    refine ⟨⟨ctx.catalog, T⟩, h2, rfl, ask_next hat rfl ?_⟩
    show react ctx (some ⟨.table, false, d.symbols, imps⟩) (endEvent 0 .struct) = _
    simp [react, endEvent, IonEventType.isStreamSignal, handle, onTable, h1]
  | cons n ns ih =>
    intro st cs d imps hat hn hp
    have hr := react_table hm n 1 d.symbols imps
    have hpn := hp n (by simp)
    have hpns : ∀ m ∈ ns, PlainField t m := fun m hmem => hp m (by simp [hmem])
    simp only [Draft.fields, Draft.field, bind, Except.bind]
    cases hname : t.fieldText n.field with
    | error err => rw [hname] at hr; exact fail_next hat rfl hr
    | ok name =>
      rw [hname] at hr
      simp only at hr ⊢
      cases n with
      | cont f a ty items =>
        simp only at hr ⊢
        by_cases h1 : name = some TEXT_SYMBOLS ∧ ty = .list
        · obtain ⟨rfl, rfl⟩ := h1
          simp only [and_self, if_true] at hr
          simp only [Draft.named, if_true, pure, Except.pure]
          obtain ⟨st1, cs1, g1, g2⟩ := ask_next hat rfl hr
          obtain ⟨st2, cs2, g3, g4⟩ := symbols_loop items g1 (ctx := ctx) (syms := d.symbols) (imps := imps)
          have hall : items.filterMap taken = items.map declared := by
            apply taken_declared
            cases f with
            | none => simp [Table.fieldText, pure, Except.pure, Node.field] at hname
            | some f => exact hpn hname
          rw [hall] at g4
          have := ih g3 (d := { d with symbols := d.symbols ++ items.map declared }) (imps := imps) hn hpns
          simp only [Fails, Goes] at this ⊢
          rw [g2, g4]; exact this
        · rw [if_neg h1] at hr
          by_cases h2 : name = some TEXT_IMPORTS ∧ ty = .list
          · obtain ⟨rfl, rfl⟩ := h2
            simp only [and_self, if_true] at hr
            have e : ¬ (some TEXT_IMPORTS = some TEXT_SYMBOLS) := by decide
            simp only [Draft.named, if_neg e, if_true, pure, Except.pure, bind, Except.bind]
            obtain ⟨st1, cs1, g1, g2⟩ := ask_next hat rfl hr
            have g := imports_loop hm (syms := d.symbols) items g1 (tabs := [])
            rw [importAll_eq]
            cases hi : importTables ctx.catalog t items with
            | error err => rw [hi] at g; simp only [Fails, Except.map] at g ⊢; rw [g2]; exact g
            | ok tabs =>
              rw [hi] at g
              simp only [Except.map]
              obtain ⟨st2, cs2, g3, g4⟩ := g
              have hfor : ∀ s ∈ tabs, Foreign s := importTables_foreign hc hi
              have := ih g3 (d := { d with base := systemTable ++ tabs.flatMap SymbolTable.contents }) (imps := some tabs)
                (.list tabs hfor) hpns
              simp only [List.nil_append] at g4
              simp only [Fails, Goes] at this ⊢
              rw [g2, g4]; exact this
          · rw [if_neg h2] at hr
            obtain ⟨st1, cs1, g1, g2⟩ := skip_over hat (ctx := ctx) (h := ⟨.table, false, d.symbols, imps⟩) rfl hr
            have := ih g1 (d := d) (imps := imps) hn hpns
            simp only [Fails, Goes] at this ⊢
            have e : d.named ctx.catalog t name (.cont f a ty items) = .ok d := by
              cases ty with
              | list =>
                simp only [and_true] at h1 h2
                simp [Draft.named, h1, h2, pure, Except.pure]
              | sexp => rfl
              | struct => rfl
            rw [e]
            simp only
            rw [g2]; exact this
      | scalar f a x =>
        simp only at hr ⊢
        by_cases h1 : x.ty = .symbol ∧ name = some TEXT_IMPORTS
        · obtain ⟨hx, rfl⟩ := h1
          rw [if_pos ⟨hx, rfl⟩] at hr
          cases x <;> simp [Scalar.ty] at hx
          · -- a null
            subst hx
            simp only [Draft.named, if_true]
            exact fail_next hat rfl hr
          · rename_i sid
            simp only [Draft.named, if_true, bind, Except.bind, pure, Except.pure, Table.text]
            simp only [inheritTable, Node.event, pyValue, resolveValue_sid hm] at hr
            cases hs : t.find sid with
            | error err => rw [hs] at hr; exact fail_next hat rfl hr
            | ok k =>
              rw [hs] at hr
              simp only at hr ⊢
              by_cases hk : k.text = some TEXT_ION_SYMBOL_TABLE
              · rw [if_pos hk] at hr
                rw [if_pos hk]
                rcases hm.kind with ⟨hk1, hk2⟩ | ⟨hk1, -⟩
                · simp only [hk1, TableType.isSystem, if_true] at hr
                  obtain ⟨st1, cs1, g1, g2⟩ := ask_next hat rfl hr
                  have := ih g1 (d := { d with base := t }) (imps := none) (by rw [hk2]; exact .none) hpns
                  simp only [Fails, Goes] at this ⊢
                  rw [g2]; exact this
                · simp only [hk1, TableType.isSystem, Bool.false_eq_true, if_false] at hr
                  have hion : ∀ m ∈ t.drop 9, m.2.map (·.name) ≠ some TEXT_ION := by
                    cases f with
                    | none => simp [Table.fieldText, pure, Except.pure, Node.field] at hname
                    | some f => exact hpn hname (by simp [Table.text, hs, bind, Except.bind, pure, Except.pure, hk])
                  obtain ⟨st1, cs1, g1, g2⟩ := ask_next hat rfl hr
                  have := ih g1 (d := { d with base := t }) (imps := some [ctx.table]) (.inherit hk1 hion) hpns
                  simp only [Fails, Goes] at this ⊢
                  rw [g2]; exact this
              · rw [if_neg hk] at hr
                rw [if_neg hk]
                obtain ⟨st1, cs1, g1, g2⟩ := ask_next hat rfl hr
                have := ih g1 (d := d) (imps := imps) hn hpns
                simp only [Fails, Goes] at this ⊢
                rw [g2]; exact this
        · rw [if_neg h1] at hr
          have e : d.named ctx.catalog t name (.scalar f a x) = .ok d := by
            cases x <;> simp [Scalar.ty] at h1 <;> simp [Draft.named, pure, Except.pure, h1]
            rename_i ty
            cases ty <;> simp at h1 <;> simp [Draft.named, pure, Except.pure, h1]
          rw [e]
          obtain ⟨st1, cs1, g1, g2⟩ := ask_next hat rfl hr
          have := ih g1 (d := d) (imps := imps) hn hpns
          simp only [Fails, Goes] at this ⊢
          rw [g2]; exact this

end
end Ion.ManagedReader
