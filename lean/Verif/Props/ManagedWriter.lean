import Mathlib.Data.List.Forall2
import Verif.ManagedWriter
import Verif.Props.RawWriter
import Verif.Props.Symbols
set_option linter.unusedSimpArgs false
/-!
# Properties C14 (and C28, C29 for the binary writer): the binary writer with symbol tables
-/
namespace Ion.Spec
open Ion

/-- The ID of a symbol in a table: for text the first definition of the text; a token without text stands for its own
ID, if the table defines it. -/
def idIn (T : SymbolTable) : SymArg → Option Nat
  | .text t => (T.symbols.findIdx? (fun k => k.text = some t)).map (· + 1)
  | .tok k => match k.text, k.sid with
    | some t, _ => (T.symbols.findIdx? (fun k => k.text = some t)).map (· + 1)
    | none, some n => if n ≤ T.symbols.length then some n else none
    | none, none => none

/-- `idIn` for the value of a symbol. -/
def idInTok (T : SymbolTable) (k : SymbolToken) : Option Nat := idIn T (.tok k)

/-- Text that UTF-8 can encode. -/
def EncodableText (t : Text) : Prop := ∀ c ∈ t, c < 0xD800 ∨ (0xDFFF < c ∧ c ≤ 0x10FFFF)

/-- A symbol the writer can take: with encodable text, or with an ID that is defined from the start. -/
def GoodSym (limit : Nat) : SymArg → Prop
  | .text t => EncodableText t
  | .tok k => match k.text, k.sid with
    | some t, _ => EncodableText t
    | none, some n => n ≤ limit
    | none, none => False

/-- The symbol in the value of a `SYMBOL` event: a token or text. -/
def symbolOfValue : PyVal → Option SymArg
  | .sym k => some (.tok k)
  | .str t => some (.text t)
  | _ => none

/-- All symbols of an event (field name, annotations, value of a symbol) can be taken; a field name given as text is not
empty. -/
structure SymbolsOK (limit : Nat) (e : IonEvent) : Prop where
  field : ∀ f, e.fieldName = some f → f ≠ .text [] ∧ GoodSym limit f
  ann : ∀ a ∈ e.annotations, GoodSym limit a
  value : e.ionType = some .symbol → e.value = .ok none ∨
    ∃ v a, e.value = .ok (some v) ∧ symbolOfValue v = some a ∧ GoodSym limit a

/-- A symbol value given as text is the same as a token with this text. -/
def asToken (e : IonEvent) : IonEvent :=
  if e.ionType = some .symbol then
    match e.value with
    | .ok (some (.str t)) => { e with value := .ok (some (.sym ⟨some t, none, none⟩)) }
    | _ => e
  else e

/-- The events describe complete values, whatever their symbols are. -/
def Balanced (evs : List IonEvent) : Prop :=
  valuesOf (σ := Unit) (fun _ => some ()) (fun _ => some ()) (evs.map asToken) ≠ none

/-- The entry of a shared table in the `imports` list of a local symbol table. -/
def importNode (t : SymbolTable) : Node Nat :=
  .cont none [] .struct [.scalar (some 4) [] (.string (t.name.getD [])), .scalar (some 5) [] (.int (t.version.getD 0)),
    .scalar (some 8) [] (.int t.maxId)]

/-- The local symbol table `$ion_symbol_table::{imports:[...], symbols:[...]}` as an Ion value. -/
def lstNode (imports : List SymbolTable) (hasSymbols : Bool) (symbols : List Text) : Node Nat :=
  .cont none [3] .struct
    ((if imports = [] then [] else [.cont (some 6) [] .list (imports.map importNode)]) ++
     (if hasSymbols then [.cont (some 7) [] .list (symbols.map fun t => .scalar none [] (.string t))] else []))

/-! ## Trees -/

theorem step_defined {σ τ : Type} {sym : SymArg → Option σ} {symTok : SymbolToken → Option σ} {sym' : SymArg → Option τ}
    {symTok' : SymbolToken → Option τ} {t t1 : Tree σ} {u : Tree τ} {e e' : IonEvent}
    (hty : t.opens.map (·.ty) = u.opens.map (·.ty))
    (h : t.step sym symTok e = some t1) (hk : e'.eventType = e.eventType) (hit : e'.ionType = e.ionType)
    (hf : (e.fieldName.bind sym).isSome → (e'.fieldName.bind sym').isSome)
    (ha : (allSome sym' e'.annotations).isSome)
    (hv : ∀ ty v, e.ionType = some ty → e.value = .ok v → (denote symTok ty v).isSome →
      ∃ v', e'.value = .ok v' ∧ (denote symTok' ty v').isSome) :
    ∃ u1, u.step sym' symTok' e' = some u1 ∧ t1.opens.map (·.ty) = u1.opens.map (·.ty) := by
  have hin : t.inStruct = u.inStruct := by
    unfold Tree.inStruct
    cases ht : t.opens <;> cases hu : u.opens <;> rw [ht, hu] at hty <;> simp at hty ⊢
    rw [hty.1]
  have hfield : ∀ x, fieldOf sym t.inStruct e.fieldName = some x → ∃ y, fieldOf sym' u.inStruct e'.fieldName = some y := by
    intro x hx
    rw [← hin]
    unfold fieldOf at hx ⊢
    cases hs : t.inStruct with
    | false => exact ⟨none, by simp⟩
    | true =>
      rw [hs] at hx
      simp only [if_true, Option.map_eq_some_iff] at hx ⊢
      obtain ⟨y, hy, -⟩ := hx
      obtain ⟨z, hz⟩ := Option.isSome_iff_exists.1 (hf (by rw [hy]; rfl))
      exact ⟨some z, z, hz, rfl⟩
  obtain ⟨as, has⟩ := Option.isSome_iff_exists.1 ha
  unfold Tree.step at h ⊢
  rw [hk, hit]
  cases het : e.eventType with
  | scalar =>
    simp only [het] at h ⊢
    split at h
    · rename_i f a ty v hf' ha' hty' hv'
      simp only [Option.map_eq_some_iff] at h
      obtain ⟨x, hx, rfl⟩ := h
      obtain ⟨y, hy⟩ := hfield _ hf'
      obtain ⟨v', hv1, hv2⟩ := hv ty v hty' hv' (by rw [hx]; rfl)
      obtain ⟨x', hx'⟩ := Option.isSome_iff_exists.1 hv2
      rw [hy, has, hty', hv1]
      simp only [hx', Option.map_some]
      exact ⟨_, rfl, hty⟩
    · cases h
  | containerStart =>
    simp only [het] at h ⊢
    split at h
    · rename_i f a ty hf' ha' hty'
      simp only [Option.some.injEq] at h
      subst h
      obtain ⟨y, hy⟩ := hfield _ hf'
      rw [hy, has, hty']
      exact ⟨_, rfl, by simpa using hty⟩
    · cases h
  | containerEnd =>
    simp only [het] at h ⊢
    split at h
    · rename_i o os hos
      simp only [Option.some.injEq] at h
      subst h
      rw [hos] at hty
      cases hu : u.opens with
      | nil => rw [hu] at hty; simp at hty
      | cons p ps =>
        rw [hu] at hty
        simp only [List.map_cons, List.cons.injEq] at hty
        exact ⟨_, rfl, hty.2⟩
    · cases h
  | incomplete => simp [het] at h
  | streamEnd => simp [het] at h
  | versionMarker => simp [het] at h

theorem step_congr {σ : Type} {sym sym' : SymArg → Option σ} {symTok symTok' : SymbolToken → Option σ}
    (t : Tree σ) {e e' : IonEvent} (hk : e'.eventType = e.eventType) (hit : e'.ionType = e.ionType)
    (hf : e'.fieldName.bind sym' = e.fieldName.bind sym) (ha : allSome sym' e'.annotations = allSome sym e.annotations)
    (hv : ∀ ty, e.ionType = some ty → (match e'.value with | .ok v => denote symTok' ty v | .error _ => none) =
      (match e.value with | .ok v => denote symTok ty v | .error _ => none)) :
    t.step sym' symTok' e' = t.step sym symTok e := by
  have hfield : fieldOf sym' t.inStruct e'.fieldName = fieldOf sym t.inStruct e.fieldName := by
    unfold fieldOf; rw [hf]
  unfold Tree.step
  rw [hk]
  cases het : e.eventType with
  | scalar =>
    simp only [hfield, ha, hit]
    cases hfo : fieldOf sym t.inStruct e.fieldName with
    | none => rfl
    | some f =>
      cases hao : allSome sym e.annotations with
      | none => rfl
      | some a =>
        cases hty : e.ionType with
        | none => rfl
        | some ty =>
          have := hv ty hty
          cases hv1 : e'.value with
          | error _ =>
            cases hv2 : e.value with
            | error _ => rfl
            | ok v => rw [hv1, hv2] at this; simp only at this ⊢; rw [← this]; rfl
          | ok v' =>
            cases hv2 : e.value with
            | error _ => rw [hv1, hv2] at this; simp only at this ⊢; rw [this]; rfl
            | ok v => rw [hv1, hv2] at this; simp only at this ⊢; rw [this]
  | containerStart => simp only [hfield, ha, hit]
  | containerEnd => rfl
  | incomplete => rfl
  | streamEnd => rfl
  | versionMarker => rfl

theorem run_append {σ : Type} (sym : SymArg → Option σ) (symTok : SymbolToken → Option σ) (t : Tree σ) (a b : List IonEvent) :
    t.run sym symTok (a ++ b) = (t.run sym symTok a).bind fun t => t.run sym symTok b := by
  induction a generalizing t with
  | nil => rfl
  | cons e a ih =>
    simp only [List.cons_append, Tree.run]
    cases t.step sym symTok e with
    | none => rfl
    | some t1 => exact ih t1

end Ion.Spec

namespace Ion.ManagedWriter
open Ion Ion.Spec Ion.SymbolTable Ion.SymbolTable.Spec

/-! ## The symbol table writer -/

/-- The event by which a local symbol is written. -/
def stringEvent (t : Text) : IonEvent := { eventType := .scalar, ionType := some .string, value := .ok (some (.str t)) }

/-- The events written so far to the raw writer of the symbol table. -/
def lstEvents (imports : List SymbolTable) (hl : Bool) (syms : List Text) : List IonEvent :=
  [lstStructStart] ++
  (if imports = [] then [] else [importsListStart] ++ imports.flatMap importEvents ++ [containerEnd]) ++
  (if hl then symbolsListStart :: syms.map stringEvent else [])

/-- An importable table: shared, with an encodable name. -/
structure GoodImport (t : SymbolTable) : Prop where
  built : Built t
  shared : t.tableType = .shared
  name : ∀ n, t.name = some n → EncodableText n

theorem shared_named {t : SymbolTable} (h : Built t) (hs : t.tableType = .shared) :
    ∃ n v, t.name = some n ∧ t.version = some v := by
  induction h with
  | new h =>
    rename_i tt symbols name version imports sub t
    have hw := new_wf h
    have htt : tt = .shared := by rw [← hw.2.1]; exact hs
    subst htt
    cases name with
    | none => simp [new, TableType.isSystem, TableType.isShared] at h
    | some n =>
      cases version with
      | none => simp [new, TableType.isSystem, TableType.isShared] at h
      | some v => exact ⟨n, v, hw.2.2.1, hw.2.2.2.1⟩
  | intern hb hi ih =>
    rename_i t text t' tok
    unfold SymbolTable.intern at hi
    split at hi
    · cases hi
    · rename_i hns
      split at hi
      · simp only [Except.ok.injEq, Prod.mk.injEq] at hi
        obtain ⟨rfl, rfl⟩ := hi; exact ih hs
      · simp only [Except.ok.injEq, Prod.mk.injEq] at hi
        have ht : t'.tableType = t.tableType := by
          have := hi; rw [addText] at this; simp only [Prod.mk.injEq] at this; rw [← this.1]; rfl
        rw [ht] at hs
        rw [hs] at hns
        exact absurd rfl hns

private theorem tokSid (n : Nat) (h : 1 ≤ n ∧ n ≤ 9) : argSid (systemToken n) = some n := by
  have : n = 1 ∨ n = 2 ∨ n = 3 ∨ n = 4 ∨ n = 5 ∨ n = 6 ∨ n = 7 ∨ n = 8 ∨ n = 9 := by omega
  rcases this with rfl | rfl | rfl | rfl | rfl | rfl | rfl | rfl | rfl <;> rfl

theorem run_import (t : SymbolTable) (h : GoodImport t) (cur : List (Spec.Node Nat)) (os : List (OpenNode Nat))
    (hos : ∀ o, os.head? = some o → o.ty = .list) :
    (Tree.mk cur os).run argSid (·.sid) (importEvents t) = some ⟨cur ++ [importNode t], os⟩ := by
  obtain ⟨n, v, hn, hv⟩ := shared_named h.built h.shared
  have hst : (Tree.mk cur os).inStruct = false := by
    cases os with
    | nil => rfl
    | cons o os => simp [Tree.inStruct, hos o rfl]
  have e4 := tokSid 4 (by omega)
  have e5 := tokSid 5 (by omega)
  have e8 := tokSid 8 (by omega)
  have h1 : (Tree.mk cur os).step argSid (·.sid) structStart = some ⟨[], ⟨none, [], .struct, cur⟩ :: os⟩ := by
    simp [Tree.step, structStart, hst, fieldOf, allSome, ctype]
  simp only [importEvents, Tree.run, h1, Option.bind_some]
  simp [containerEnd, Tree.step, fieldOf, allSome, ctype, Tree.inStruct, denote,
    SID_NAME, SID_VERSION, SID_MAX_ID, e4, e5, e8, hn, hv, importNode]

theorem run_imports (ts : List SymbolTable) (h : ∀ t ∈ ts, GoodImport t) (cur : List (Spec.Node Nat))
    (os : List (OpenNode Nat)) (hos : ∀ o, os.head? = some o → o.ty = .list) :
    (Tree.mk cur os).run argSid (·.sid) (ts.flatMap importEvents) = some ⟨cur ++ ts.map importNode, os⟩ := by
  induction ts generalizing cur with
  | nil => simp [Tree.run]
  | cons t ts ih =>
    rw [List.flatMap_cons, run_append, run_import t (h t (by simp)) cur os hos]
    simp only [Option.bind_some]
    rw [ih (fun t' h' => h t' (by simp [h']))]
    simp

theorem run_strings (syms : List Text) (cur : List (Spec.Node Nat)) (o : OpenNode Nat) (os : List (OpenNode Nat))
    (ho : o.ty = .list) :
    (Tree.mk cur (o :: os)).run argSid (·.sid) (syms.map stringEvent) =
      some ⟨cur ++ syms.map fun t => .scalar none [] (.string t), o :: os⟩ := by
  induction syms generalizing cur with
  | nil => simp [Tree.run]
  | cons t ts ih =>
    simp only [List.map_cons, Tree.run]
    have : (Tree.mk cur (o :: os)).step argSid (·.sid) (stringEvent t)
        = some ⟨cur ++ [.scalar none [] (.string t)], o :: os⟩ := by
      simp [Tree.step, stringEvent, Tree.inStruct, ho, fieldOf, allSome, denote]
    rw [this]
    simp only [Option.bind_some]
    rw [ih]
    simp

/-- The part of the local symbol table before its symbols. -/
def lstHead (imports : List SymbolTable) : List (Spec.Node Nat) :=
  if imports = [] then [] else [.cont (some 6) [] .list (imports.map importNode)]

/-- The tree built by `lstEvents`. -/
theorem run_lst (imports : List SymbolTable) (h : ∀ t ∈ imports, GoodImport t) (hl : Bool) (syms : List Text) :
    Tree.empty.run argSid (·.sid) (lstEvents imports hl syms) = some
      (if hl then ⟨syms.map fun t => .scalar none [] (.string t),
          [⟨some 7, [], .list, lstHead imports⟩, ⟨none, [3], .struct, []⟩]⟩
        else ⟨lstHead imports, [⟨none, [3], .struct, []⟩]⟩) := by
  have e3 := tokSid 3 (by omega)
  have e6 := tokSid 6 (by omega)
  have e7 := tokSid 7 (by omega)
  have h1 : Tree.empty.run argSid (·.sid) [lstStructStart] = some ⟨[], [⟨none, [3], .struct, []⟩]⟩ := by
    simp [Tree.empty, Tree.run, Tree.step, lstStructStart, Tree.inStruct, fieldOf, allSome, ctype, SID_ION_SYMBOL_TABLE, e3]
  have h2 : (Tree.mk [] [⟨none, [3], .struct, []⟩]).run argSid (·.sid)
      (if imports = [] then [] else [importsListStart] ++ imports.flatMap importEvents ++ [containerEnd])
      = some ⟨lstHead imports, [⟨none, [3], .struct, []⟩]⟩ := by
    by_cases hi : imports = []
    · simp [hi, lstHead, Tree.run]
    · simp only [hi, if_false, lstHead]
      rw [run_append, run_append]
      have : (Tree.mk ([] : List (Spec.Node Nat)) [⟨none, [3], .struct, []⟩]).run argSid (·.sid) [importsListStart]
          = some ⟨[], [⟨some 6, [], .list, []⟩, ⟨none, [3], .struct, []⟩]⟩ := by
        simp [Tree.run, Tree.step, importsListStart, Tree.inStruct, fieldOf, allSome, ctype, SID_IMPORTS, e6]
      rw [this]
      simp only [Option.bind_some]
      rw [run_imports imports h [] _ (by simp)]
      simp [Tree.run, Tree.step, containerEnd]
  unfold lstEvents
  rw [run_append, run_append, h1]
  simp only [Option.bind_some, h2]
  cases hl with
  | false => simp [Tree.run]
  | true =>
    simp only [if_true, Tree.run]
    have : (Tree.mk (lstHead imports) [⟨none, [3], .struct, []⟩]).step argSid (·.sid) symbolsListStart
          = some ⟨[], [⟨some 7, [], .list, lstHead imports⟩, ⟨none, [3], .struct, []⟩]⟩ := by
        simp [Tree.step, symbolsListStart, Tree.inStruct, fieldOf, allSome, ctype, SID_SYMBOLS, e7]
    rw [this]
    simp only [Option.bind_some]
    rw [run_strings syms [] _ _ rfl]
    simp

theorem lst_events_ok (imports : List SymbolTable) (h : ∀ t ∈ imports, GoodImport t) (hl : Bool) (syms : List Text)
    (hs : ∀ t ∈ syms, EncodableText t) (e : IonEvent) (he : e ∈ lstEvents imports hl syms) :
    RegularEvent e ∧ EncodableEvent e := by
  have plain : ∀ e : IonEvent, e.eventType ≠ .scalar → RegularEvent e ∧ EncodableEvent e :=
    fun e hne => ⟨fun h => absurd h hne, fun h => absurd h hne⟩
  have himp : ∀ t ∈ imports, ∀ e ∈ importEvents t, RegularEvent e ∧ EncodableEvent e := by
    intro t ht e he
    simp only [importEvents, List.mem_cons, List.not_mem_nil, or_false] at he
    rcases he with rfl | rfl | rfl | rfl | rfl
    · exact plain _ (by simp [structStart])
    · refine ⟨fun _ v hv => ?_, fun _ v hv => ?_⟩ <;> simp at hv <;> obtain ⟨n, hn, rfl⟩ := hv
      · trivial
      · exact (h t ht).name n hn
    · refine ⟨fun _ v hv => ?_, fun _ v hv => ?_⟩ <;> simp at hv <;> obtain ⟨n, hn, rfl⟩ := hv <;> trivial
    · refine ⟨fun _ v hv => ?_, fun _ v hv => ?_⟩ <;> simp at hv <;> subst hv <;> trivial
    · exact plain _ (by simp [containerEnd])
  simp only [lstEvents, List.mem_append, List.mem_singleton] at he
  rcases he with (rfl | he) | he
  · exact plain _ (by simp [lstStructStart])
  · split at he
    · simp at he
    · simp only [List.mem_append, List.mem_singleton, List.mem_flatMap] at he
      rcases he with (rfl | ⟨t, ht, he⟩) | rfl
      · exact plain _ (by simp [importsListStart])
      · exact himp t ht e he
      · exact plain _ (by simp [containerEnd])
  · split at he
    · simp only [List.mem_cons, List.mem_map] at he
      rcases he with rfl | ⟨t, ht, rfl⟩
      · exact plain _ (by simp [symbolsListStart])
      · refine ⟨fun _ v hv => ?_, fun _ v hv => ?_⟩ <;> simp [stringEvent] at hv <;> subst hv
        · trivial
        · exact hs t ht
    · simp at he

/-- The raw writer accepts the events of a symbol table. -/
theorem lst_accept (imports : List SymbolTable) (h : ∀ t ∈ imports, GoodImport t) (hl : Bool) (syms : List Text)
    (hs : ∀ t ∈ syms, EncodableText t) :
    ∃ raw, runEvents RawWriter.step RawWriter.init (lstEvents imports hl syms) = ([], .ok raw) := by
  have hok := lst_events_ok imports h hl syms hs
  obtain ⟨s, hs, -⟩ := (RawWriter.run_spec _ RawWriter.init Tree.empty _ RawWriter.inv_init (run_lst imports h hl syms)
    (fun e he => (hok e he).1)).1 (fun e he => (hok e he).2)
  exact ⟨s, hs⟩

theorem write_of_run {s s' : RawWriter.State} {e : IonEvent} (h : runEvents RawWriter.step s [e] = ([], .ok s')) :
    write s e = .ok s' := by
  simp only [runEvents, RawWriter.step] at h
  unfold write
  cases hh : RawWriter.handle s e with
  | error err => rw [hh] at h; simp at h
  | ok p =>
    obtain ⟨cs, w, s1⟩ := p
    rw [hh] at h
    simp only [List.append_nil, Prod.mk.injEq, Except.ok.injEq] at h
    obtain ⟨-, rfl⟩ := h
    rfl

/-- Split a successful run that yields nothing. -/
theorem run_split {s s' : RawWriter.State} {a b : List IonEvent}
    (h : runEvents RawWriter.step s (a ++ b) = ([], .ok s')) :
    ∃ s1, runEvents RawWriter.step s a = ([], .ok s1) ∧ runEvents RawWriter.step s1 b = ([], .ok s') := by
  rw [RawWriter.runEvents_append] at h
  cases hr : runEvents RawWriter.step s a with
  | mk cs r =>
    rw [hr] at h
    cases r with
    | error err => simp at h
    | ok s1 =>
      simp only [Prod.mk.injEq, List.append_eq_nil_iff] at h
      obtain ⟨⟨rfl, h1⟩, h2⟩ := h
      exact ⟨s1, rfl, Prod.ext h1 h2⟩

theorem writeAll_of_run {s s' : RawWriter.State} {es : List IonEvent}
    (h : runEvents RawWriter.step s es = ([], .ok s')) : writeAll s es = .ok s' := by
  induction es generalizing s with
  | nil => simp [runEvents] at h; simp [writeAll, h]
  | cons e es ih =>
    obtain ⟨s1, h1, h2⟩ := run_split (a := [e]) (b := es) h
    simp [writeAll, write_of_run h1, ih h2, bind, Except.bind]

theorem writeImports_of_run {s s' : RawWriter.State} {ts : List SymbolTable} (hg : ∀ t ∈ ts, GoodImport t)
    (h : runEvents RawWriter.step s (ts.flatMap importEvents) = ([], .ok s')) : writeImports s ts = .ok s' := by
  induction ts generalizing s with
  | nil => simp [runEvents] at h; simp [writeImports, h]
  | cons t ts ih =>
    rw [List.flatMap_cons] at h
    obtain ⟨s1, h1, h2⟩ := run_split h
    have := (hg t (by simp)).shared
    simp [writeImports, this, writeAll_of_run h1, ih (fun t' h' => hg t' (by simp [h'])) h2, bind, Except.bind]

/-- State of the symbol table writer after some symbols. -/
structure SymInv (imports : Option (List SymbolTable)) (s : SymState) (hl : Bool) (syms : List Text) (T : SymbolTable) :
    Prop where
  table : s.table = some T
  new : SymbolTable.new .local (syms.map some) (imports := imports) = .ok T
  hasLocal : s.hasLocal = hl
  none : hl = false → syms = []
  enc : ∀ t ∈ syms, EncodableText t
  nodup : syms.Nodup
  fresh : ∀ T0, SymbolTable.new .local [] (imports := imports) = .ok T0 → ∀ t ∈ syms, ∀ k ∈ T0.symbols, k.text ≠ some t
  raw : runEvents RawWriter.step RawWriter.init (lstEvents (imports.getD []) hl syms) = ([], .ok s.raw)

theorem startLst_spec (imports : Option (List SymbolTable)) (h : ∀ t ∈ imports.getD [], GoodImport t) :
    ∃ s T, startLst imports init.sym = .ok s ∧ SymInv imports s false [] T := by
  obtain ⟨raw, hraw⟩ := lst_accept (imports.getD []) h false [] (by simp)
  obtain ⟨T, hT, -⟩ := new_local_spec [] imports false
  refine ⟨⟨raw, some T, false⟩, T, ?_, ⟨rfl, hT, rfl, fun _ => rfl, by simp, by simp, by simp, hraw⟩⟩
  unfold startLst
  have hT' : SymbolTable.new .local [] (imports := imports) = .ok T := hT
  simp only [lstEvents, Bool.false_eq_true, if_false, List.append_nil] at hraw
  obtain ⟨s1, h1, h2⟩ := run_split hraw
  have w1 : write init.sym.raw lstStructStart = .ok s1 := write_of_run h1
  simp only [w1, bind, Except.bind, pure, Except.pure, hT']
  cases imports with
  | none =>
    simp [runEvents] at h2
    simp [h2, init]
  | some ts =>
    cases ts with
    | nil =>
      simp [runEvents] at h2
      simp [h2, init]
    | cons t ts =>
      simp only [Option.getD_some, reduceCtorEq, if_false] at h2
      obtain ⟨s2, h3, h4⟩ := run_split h2
      obtain ⟨s3, h5, h6⟩ := run_split h3
      have w2 := write_of_run h5
      have w3 := writeImports_of_run (ts := t :: ts) h h6
      have w4 := write_of_run h4
      simp [w2, w3, w4, init]

/-! ## IDs of symbols -/

theorem findIdx?_prefix {l l' : List SymbolToken} (hp : l <+: l') (p : SymbolToken → Bool) (n : Nat)
    (h : l.findIdx? p = some n) : l'.findIdx? p = some n := by
  obtain ⟨r, rfl⟩ := hp
  rw [List.findIdx?_append, h]; rfl

theorem idIn_prefix {T T' : SymbolTable} (hp : T.symbols <+: T'.symbols) (a : SymArg) (n : Nat)
    (h : idIn T a = some n) : idIn T' a = some n := by
  have key : ∀ t : Text, (T.symbols.findIdx? (fun k => k.text = some t)).map (· + 1) = some n →
      (T'.symbols.findIdx? (fun k => k.text = some t)).map (· + 1) = some n := by
    intro t ht
    simp only [Option.map_eq_some_iff] at ht ⊢
    obtain ⟨m, hm, rfl⟩ := ht
    exact ⟨m, findIdx?_prefix hp _ m hm, rfl⟩
  cases a with
  | text t => exact key t h
  | tok k =>
    simp only [idIn] at h ⊢
    split at h
    · exact key _ h
    · rename_i m hm1 hm2
      split at h
      · simp only [Option.some.injEq] at h
        subst h
        have := hp.length_le
        rw [if_pos (by omega)]
      · cases h
    · cases h

/-- The token bears the ID of the symbol. -/
def Interned (T : SymbolTable) (a : SymArg) (tok : SymbolToken) : Prop := ∃ n, tok.sid = some n ∧ idIn T a = some n

theorem wf_new {syms : List (Option Text)} {imports : Option (List SymbolTable)} {T : SymbolTable}
    (h : SymbolTable.new .local syms (imports := imports) = .ok T) : WF T ∧ T.tableType = .local :=
  ⟨(new_wf h).1, (new_wf h).2.1⟩

theorem getText_id {T : SymbolTable} (hw : WF T) (t : Text) (tok : SymbolToken) (h : T.getText t = some tok) :
    ∃ n, tok.sid = some n ∧ (T.symbols.findIdx? (fun k => k.text = some t)).map (· + 1) = some n := by
  simp only [getText, hw.mapping t] at h
  have hs := List.find?_eq_some_iff_getElem.1 h
  obtain ⟨hp, i, hi, hget, hbefore⟩ := hs
  refine ⟨i + 1, ?_, ?_⟩
  · rw [← hget]; exact hw.sids i hi
  · rw [Option.map_eq_some_iff]
    refine ⟨i, ?_, rfl⟩
    rw [List.findIdx?_eq_some_iff_getElem]
    exact ⟨hi, by rw [hget]; exact hp, fun j hj => by simpa using hbefore j hj⟩

theorem getText_none {T : SymbolTable} (hw : WF T) (t : Text) (h : T.getText t = none) : ∀ k ∈ T.symbols, k.text ≠ some t := by
  simp only [getText, hw.mapping t, List.find?_eq_none] at h
  intro k hk hc
  exact h k hk (by simp [hc])

theorem addText_id {T : SymbolTable} (hw : WF T) (t : Text) (h : T.getText t = none) :
    ((T.addText (some t)).1.symbols.findIdx? (fun k => k.text = some t)).map (· + 1) = some (T.maxId + 1) := by
  have hs : (T.addText (some t)).1.symbols = T.symbols ++ [(T.addText (some t)).2] := rfl
  have hn := getText_none hw t h
  rw [hs, List.findIdx?_append]
  have : T.symbols.findIdx? (fun k => k.text = some t) = none := by
    rw [List.findIdx?_eq_none_iff]; intro k hk; simpa using hn k hk
  rw [this]
  simp [List.findIdx?_cons, addText, hw.maxId]

theorem base_prefix {imports : Option (List SymbolTable)} {syms : List Text} {T T0 : SymbolTable}
    (h : SymbolTable.new .local (syms.map some) (imports := imports) = .ok T)
    (h0 : SymbolTable.new .local [] (imports := imports) = .ok T0) : T0.symbols <+: T.symbols := by
  have key : ∀ (l : List (Option Text)) (t : SymbolTable), t.symbols <+: (l.foldl (fun t s => (t.addText s).1) t).symbols := by
    intro l
    induction l with
    | nil => intro t; exact List.prefix_refl _
    | cons x l ih =>
      intro t
      refine List.IsPrefix.trans ?_ (ih _)
      exact ⟨[(t.addText x).2], rfl⟩
  simp only [SymbolTable.new, TableType.isSystem, TableType.isShared, TableType.isLocal, Bool.false_and, Bool.true_and,
    Option.isSome_none, Bool.or_false, if_false, Bool.false_eq_true, Bool.true_or, if_true, Except.ok.injEq,
    List.foldl_nil] at h h0
  rw [← h, ← h0]
  exact key _ _

theorem new_snoc {imports : Option (List SymbolTable)} {syms : List Text} {T : SymbolTable} (x : Text)
    (h : SymbolTable.new .local (syms.map some) (imports := imports) = .ok T) :
    SymbolTable.new .local ((syms ++ [x]).map some) (imports := imports) = .ok (T.addText (some x)).1 := by
  simp only [SymbolTable.new, TableType.isSystem, TableType.isShared, TableType.isLocal, Bool.false_and, Bool.true_and,
    Option.isSome_none, Bool.or_false, if_false, Bool.false_eq_true, Bool.true_or, if_true, Except.ok.injEq] at h ⊢
  rw [← h, List.map_append, List.foldl_append]
  rfl

theorem addText_new_text {T : SymbolTable} (t : Text) : (T.addText (some t)).2.text = some t := rfl

/-- One symbol. -/
theorem internSymbol_spec {imports : Option (List SymbolTable)} (hg : ∀ t ∈ imports.getD [], GoodImport t) {s : SymState}
    {hl : Bool} {syms : List Text} {T T0 : SymbolTable} (hinv : SymInv imports s hl syms T)
    (h0 : SymbolTable.new .local [] (imports := imports) = .ok T0) (a : SymArg) (ha : GoodSym T0.symbols.length a) :
    ∃ s' tok syms' T', internSymbol s a = .ok (s', tok) ∧ SymInv imports s' true syms' T' ∧
      T.symbols <+: T'.symbols ∧ Interned T' a tok := by
  obtain ⟨hw, hlt⟩ := wf_new hinv.new
  -- the state with the symbols list started
  obtain ⟨raw1, hraw1⟩ := lst_accept (imports.getD []) hg true syms hinv.enc
  have hstart : (if s.hasLocal then .ok s.raw else write s.raw symbolsListStart : Except PyErr RawWriter.State) = .ok raw1 := by
    cases hl with
    | true =>
      rw [hinv.hasLocal]
      have := hinv.raw
      rw [hraw1] at this
      simp at this
      simp [this]
    | false =>
      rw [hinv.hasLocal]
      have hsy := hinv.none rfl
      have e1 : lstEvents (imports.getD []) true syms = lstEvents (imports.getD []) false syms ++ [symbolsListStart] := by
        rw [hsy]; simp [lstEvents]
      rw [e1] at hraw1
      obtain ⟨s1, h1, h2⟩ := run_split hraw1
      have := hinv.raw
      rw [h1] at this
      simp at this
      subst this
      simp [write_of_run h2]
  have hfound : ∀ key text tok, symbolKey a = .ok (key, text) → T.get key none = some tok → Interned T a tok →
      ∃ s' tok syms' T', internSymbol s a = .ok (s', tok) ∧ SymInv imports s' true syms' T' ∧
        T.symbols <+: T'.symbols ∧ Interned T' a tok := by
    intro key text tok hk ht hi
    refine ⟨⟨raw1, some T, true⟩, tok, syms, T, ?_, ⟨rfl, hinv.new, rfl, by simp, hinv.enc, hinv.nodup, hinv.fresh, hraw1⟩,
      List.prefix_refl _, hi⟩
    simp [internSymbol, hinv.table, hstart, hk, ht, bind, Except.bind, pure, Except.pure]
  have htext : ∀ t, symbolKey a = .ok (.text t, some t) → EncodableText t →
      (∀ T : SymbolTable, idIn T a = (T.symbols.findIdx? (fun k => k.text = some t)).map (· + 1)) →
      ∃ s' tok syms' T', internSymbol s a = .ok (s', tok) ∧ SymInv imports s' true syms' T' ∧
        T.symbols <+: T'.symbols ∧ Interned T' a tok := by
    intro t hk henc hid
    cases ht : T.getText t with
    | some tok =>
      obtain ⟨n, h1, h2⟩ := getText_id hw t tok ht
      exact hfound _ _ tok hk ht ⟨n, h1, by rw [hid, h2]⟩
    | none =>
      have hint : T.intern t = .ok (T.addText (some t)) := by
        unfold SymbolTable.intern
        rw [hlt]
        simp [TableType.isShared, ht]
      have henc' : ∀ x ∈ syms ++ [t], EncodableText x := by
        intro x hx
        rcases List.mem_append.1 hx with hx | hx
        · exact hinv.enc x hx
        · rw [List.mem_singleton.1 hx]; exact henc
      obtain ⟨raw2, hraw2⟩ := lst_accept (imports.getD []) hg true (syms ++ [t]) henc'
      have e1 : lstEvents (imports.getD []) true (syms ++ [t]) = lstEvents (imports.getD []) true syms ++ [stringEvent t] := by
        simp [lstEvents]
      have hraw2' := hraw2
      rw [e1] at hraw2'
      obtain ⟨s1, h1, h2⟩ := run_split hraw2'
      rw [hraw1] at h1
      simp at h1
      subst h1
      have hwr : write raw1 ({ eventType := .scalar, ionType := some .string, value := .ok ((T.addText (some t)).2.text.map .str) } : IonEvent) = .ok raw2 := write_of_run h2
      have hmem : ∀ x ∈ syms, ∃ k ∈ T.symbols, k.text = some x := by
        intro x hx
        obtain ⟨T', hT', hw', -, -, -, -, hc⟩ := new_local_spec (syms.map some) imports false
        have : T' = T := by
          have := hinv.new; rw [hT'] at this; simpa using this
        subst this
        have : ((some x, none) : Content) ∈ T'.contents := by
          rw [hc]
          simp only [List.mem_append, List.map_map, List.mem_map, Function.comp]
          exact .inr ⟨x, hx, rfl⟩
        simp only [contents, List.mem_map] at this
        obtain ⟨k, hk, hkk⟩ := this
        exact ⟨k, hk, (Prod.mk.inj hkk).1⟩
      have hno := getText_none hw t ht
      refine ⟨⟨raw2, some (T.addText (some t)).1, true⟩, (T.addText (some t)).2, syms ++ [t], (T.addText (some t)).1, ?_,
        ⟨rfl, new_snoc t hinv.new, rfl, by simp, henc', ?_, ?_, hraw2⟩, ⟨[(T.addText (some t)).2], rfl⟩,
        ⟨T.maxId + 1, rfl, by rw [hid, addText_id hw t ht]⟩⟩
      · simp only [internSymbol, hinv.table, hstart, hk, bind, Except.bind, pure, Except.pure, SymbolTable.get, ht, hint]
        simp only [hwr]
      · rw [List.nodup_append]
        refine ⟨hinv.nodup, by simp, ?_⟩
        intro x hx y hy hxy
        rw [List.mem_singleton.1 hy] at hxy
        subst hxy
        obtain ⟨k, hk, hkt⟩ := hmem x hx
        exact hno k hk hkt
      · intro T0' hT0' x hx k hk
        rcases List.mem_append.1 hx with hx | hx
        · exact hinv.fresh T0' hT0' x hx k hk
        · rw [List.mem_singleton.1 hx]
          exact hno k ((base_prefix hinv.new hT0').subset hk)
  cases a with
  | text t => exact htext t rfl ha (fun _ => rfl)
  | tok k =>
    cases hkt : k.text with
    | some t =>
      simp only [GoodSym, hkt] at ha
      exact htext t (by simp [symbolKey, hkt]) ha (fun T => by simp [idIn, hkt])
    | none =>
      cases hks : k.sid with
      | none => simp only [GoodSym, hkt, hks] at ha
      | some n =>
        simp only [GoodSym, hkt, hks] at ha
        have hle : n ≤ T.symbols.length := Nat.le_trans ha (base_prefix hinv.new h0).length_le
        have hid : idIn T (.tok k) = some n := by simp [idIn, hkt, hks, hle]
        have hk : symbolKey (.tok k) = .ok (.sid n, none) := by simp [symbolKey, hkt, hks]
        by_cases hz : n = 0
        · subst hz
          exact hfound _ _ SYMBOL_ZERO_TOKEN hk rfl ⟨0, rfl, hid⟩
        · have hmx : n ≤ T.maxId := by rw [hw.maxId]; exact hle
          have hget := (hw.getSid_eq n (by omega) hmx none).1
          have hlt' : n - 1 < T.symbols.length := by omega
          rw [List.getElem?_eq_getElem hlt'] at hget
          refine hfound _ _ (T.symbols[n - 1]) hk hget ⟨n, ?_, hid⟩
          rw [hw.sids (n - 1) hlt']
          congr 1; omega

/-! ## Events with interned symbols -/

/-- `e'` is `e` with its symbols replaced by tokens that bear their IDs in the table `T`. -/
structure EventRel (T : SymbolTable) (e e' : IonEvent) : Prop where
  kind : e'.eventType = e.eventType
  ty : e'.ionType = e.ionType
  field : (e.fieldName = none ∧ e'.fieldName = none) ∨
    ∃ f tok, e.fieldName = some f ∧ e'.fieldName = some (.tok tok) ∧ Interned T f tok
  ann : ∃ toks, e'.annotations = toks.map .tok ∧ List.Forall₂ (Interned T) e.annotations toks
  value : (e.ionType ≠ some .symbol ∧ e'.value = e.value) ∨ (e.ionType = some .symbol ∧ e.value = .ok none ∧ e'.value = .ok none) ∨
    ∃ v a tok, e.ionType = some .symbol ∧ e.value = .ok (some v) ∧ symbolOfValue v = some a ∧
      e'.value = .ok (some (.sym tok)) ∧ Interned T a tok

theorem Interned.mono {T T' : SymbolTable} (hp : T.symbols <+: T'.symbols) {a : SymArg} {tok : SymbolToken}
    (h : Interned T a tok) : Interned T' a tok := by
  obtain ⟨n, h1, h2⟩ := h
  exact ⟨n, h1, idIn_prefix hp a n h2⟩

theorem EventRel.mono {T T' : SymbolTable} (hp : T.symbols <+: T'.symbols) {e e' : IonEvent} (h : EventRel T e e') :
    EventRel T' e e' := by
  refine ⟨h.kind, h.ty, ?_, ?_, ?_⟩
  · rcases h.field with h | ⟨f, tok, h1, h2, h3⟩
    · exact .inl h
    · exact .inr ⟨f, tok, h1, h2, h3.mono hp⟩
  · obtain ⟨toks, h1, h2⟩ := h.ann
    refine ⟨toks, h1, ?_⟩
    generalize e.annotations = as at h2
    clear h1
    induction h2 with
    | nil => exact .nil
    | cons h _ ih => exact .cons (h.mono hp) ih
  · rcases h.value with h | h | ⟨v, a, tok, h1, h2, h3, h4, h5⟩
    · exact .inl h
    · exact .inr (.inl h)
    · exact .inr (.inr ⟨v, a, tok, h1, h2, h3, h4, h5.mono hp⟩)

theorem allSome_interned {T : SymbolTable} {as : List SymArg} {toks : List SymbolToken}
    (h : List.Forall₂ (Interned T) as toks) :
    allSome argSid (toks.map .tok) = allSome (idIn T) as ∧ (allSome argSid (toks.map .tok)).isSome := by
  induction h with
  | nil => exact ⟨rfl, rfl⟩
  | cons h _ ih =>
    obtain ⟨n, h1, h2⟩ := h
    obtain ⟨i1, i2⟩ := ih
    obtain ⟨l, hl⟩ := Option.isSome_iff_exists.1 i2
    rw [hl] at i1
    simp [allSome, argSid, h1, h2, hl, ← i1]

theorem asToken_facts (e : IonEvent) : (asToken e).eventType = e.eventType ∧ (asToken e).ionType = e.ionType ∧
    (asToken e).fieldName = e.fieldName ∧ (asToken e).annotations = e.annotations := by
  unfold asToken
  split
  · split <;> exact ⟨rfl, rfl, rfl, rfl⟩
  · exact ⟨rfl, rfl, rfl, rfl⟩

/-- The value of the event, as a token. -/
theorem asToken_value {e : IonEvent} {v : PyVal} {a : SymArg} (hty : e.ionType = some .symbol) (hv : e.value = .ok (some v))
    (ha : symbolOfValue v = some a) : ∃ k, (asToken e).value = .ok (some (.sym k)) ∧ ∀ T, idInTok T k = idIn T a := by
  unfold asToken
  rw [if_pos hty]
  cases v <;> simp [symbolOfValue] at ha <;> subst ha
  · rename_i k
    rw [hv]
    exact ⟨k, hv, fun _ => rfl⟩
  · rename_i t
    rw [hv]
    exact ⟨_, rfl, fun _ => rfl⟩

theorem asToken_other {e : IonEvent} (h : e.ionType ≠ some .symbol) : asToken e = e := by
  unfold asToken; rw [if_neg h]

theorem asToken_null {e : IonEvent} (h : e.value = .ok none) : asToken e = e := by
  unfold asToken; split
  · rw [h]
  · rfl

/-- The raw event adds to a document what the original one adds with IDs taken from the table. -/
theorem EventRel.step_eq {T : SymbolTable} {e e' : IonEvent} (h : EventRel T e e') (t : Tree Nat) :
    t.step argSid (·.sid) e' = t.step (idIn T) (idInTok T) (asToken e) := by
  obtain ⟨f1, f2, f3, f4⟩ := asToken_facts e
  refine step_congr t (by rw [f1]; exact h.kind) (by rw [f2]; exact h.ty) ?_ ?_ ?_
  · rw [f3]
    rcases h.field with ⟨h1, h2⟩ | ⟨f, tok, h1, h2, n, h3, h4⟩
    · rw [h1, h2]; rfl
    · rw [h1, h2]; simp [argSid, h3, h4]
  · rw [f4]
    obtain ⟨toks, h1, h2⟩ := h.ann
    rw [h1]; exact (allSome_interned h2).1
  · intro ty hty
    rw [f2] at hty
    rcases h.value with ⟨h1, h2⟩ | ⟨h1, h2, h3⟩ | ⟨v, a, tok, h1, h2, h3, h4, n, h5, h6⟩
    · rw [asToken_other h1, h2]
      have : ty ≠ .symbol := by intro hc; subst hc; exact h1 hty
      cases e.value with
      | error _ => rfl
      | ok v =>
        cases v with
        | none => rfl
        | some v => cases ty <;> cases v <;> simp_all [denote]
    · rw [asToken_null h2, h2, h3]; rfl
    · obtain ⟨k, hk, hid⟩ := asToken_value h1 h2 h3
      rw [hk, h4]
      rw [h1] at hty
      simp only [Option.some.injEq] at hty
      subst hty
      simp [denote, h5, hid, h6]

theorem EventRel.defined {T : SymbolTable} {e e' : IonEvent} (h : EventRel T e e') {t t1 : Tree Unit} {u : Tree Nat}
    (hty : t.opens.map (·.ty) = u.opens.map (·.ty))
    (hs : t.step (fun _ => some ()) (fun _ => some ()) (asToken e) = some t1) :
    ∃ u1, u.step argSid (·.sid) e' = some u1 ∧ t1.opens.map (·.ty) = u1.opens.map (·.ty) := by
  obtain ⟨f1, f2, f3, f4⟩ := asToken_facts e
  refine step_defined hty hs (by rw [f1]; exact h.kind) (by rw [f2]; exact h.ty) ?_ ?_ ?_
  · rw [f3]
    rcases h.field with ⟨h1, h2⟩ | ⟨f, tok, h1, h2, n, h3, h4⟩
    · rw [h1]; simp
    · rw [h1, h2]; simp [argSid, h3]
  · obtain ⟨toks, h1, h2⟩ := h.ann
    rw [h1]; exact (allSome_interned h2).2
  · intro ty v hty hv hd
    rw [f2] at hty
    rcases h.value with ⟨h1, h2⟩ | ⟨h1, h2, h3⟩ | ⟨w, a, tok, h1, h2, h3, h4, n, h5, h6⟩
    · rw [asToken_other h1] at hv
      refine ⟨v, by rw [h2, hv], ?_⟩
      have : ty ≠ .symbol := by intro hc; subst hc; exact h1 hty
      cases v with
      | none => rfl
      | some v => cases ty <;> cases v <;> simp_all [denote]
    · exact ⟨none, h3, rfl⟩
    · rw [h1] at hty
      simp only [Option.some.injEq] at hty
      subst hty
      exact ⟨_, h4, by simp [denote, h5]⟩

theorem EventRel.regular {T : SymbolTable} {e e' : IonEvent} (h : EventRel T e e') (hr : RegularEvent e)
    (he : EncodableEvent e) : RegularEvent e' ∧ EncodableEvent e' := by
  have key : ∀ v, e'.value = .ok (some v) → e.value = .ok (some v) ∨ ∃ tok, v = .sym tok := by
    intro v hv
    rcases h.value with ⟨h1, h2⟩ | ⟨h1, h2, h3⟩ | ⟨w, a, tok, h1, h2, h3, h4, n, h5, h6⟩
    · rw [h2] at hv; exact .inl hv
    · rw [h3] at hv; simp at hv
    · rw [h4] at hv; simp at hv; exact .inr ⟨tok, hv.symm⟩
  constructor
  · intro hk v hv
    rw [h.kind] at hk
    rcases key v hv with h1 | ⟨tok, rfl⟩
    · exact hr hk v h1
    · trivial
  · intro hk v hv
    rw [h.kind] at hk
    rcases key v hv with h1 | ⟨tok, rfl⟩
    · exact he hk v h1
    · trivial

theorem internAll_spec {imports : Option (List SymbolTable)} (hg : ∀ t ∈ imports.getD [], GoodImport t)
    {T0 : SymbolTable} (h0 : SymbolTable.new .local [] (imports := imports) = .ok T0) (as : List SymArg)
    (ha : ∀ a ∈ as, GoodSym T0.symbols.length a) {s : SymState} {hl : Bool} {syms : List Text} {T : SymbolTable}
    (hinv : SymInv imports s hl syms T) :
    ∃ s' toks hl' syms' T', internAll s as = .ok (s', toks.map .tok) ∧ SymInv imports s' hl' syms' T' ∧
      T.symbols <+: T'.symbols ∧ List.Forall₂ (Interned T') as toks := by
  induction as generalizing s hl syms T with
  | nil => exact ⟨s, [], hl, syms, T, rfl, hinv, List.prefix_refl _, .nil⟩
  | cons a as ih =>
    obtain ⟨s1, tok, syms1, T1, h1, h2, h3, h4⟩ := internSymbol_spec hg hinv h0 a (ha a (by simp))
    obtain ⟨s2, toks, hl2, syms2, T2, k1, k2, k3, k4⟩ := ih (fun b hb => ha b (by simp [hb])) h2
    refine ⟨s2, tok :: toks, hl2, syms2, T2, ?_, k2, h3.trans k3, .cons (h4.mono k3) k4⟩
    simp [internAll, h1, k1, bind, Except.bind, pure, Except.pure]

theorem forall₂_mono {T T' : SymbolTable} (hp : T.symbols <+: T'.symbols) {as : List SymArg} {toks : List SymbolToken}
    (h : List.Forall₂ (Interned T) as toks) : List.Forall₂ (Interned T') as toks := by
  induction h with
  | nil => exact .nil
  | cons h _ ih => exact .cons (h.mono hp) ih

/-- One event's symbols. -/
theorem internSymbols_spec {imports : Option (List SymbolTable)} (hg : ∀ t ∈ imports.getD [], GoodImport t)
    {T0 : SymbolTable} (h0 : SymbolTable.new .local [] (imports := imports) = .ok T0) (e : IonEvent)
    (he : SymbolsOK T0.symbols.length e) {s : SymState} {hl : Bool} {syms : List Text} {T : SymbolTable}
    (hinv : SymInv imports s hl syms T) :
    ∃ s' e' hl' syms' T', internSymbols s e = .ok (s', e') ∧ SymInv imports s' hl' syms' T' ∧
      T.symbols <+: T'.symbols ∧ EventRel T' e e' := by
  -- the field name
  have hfield : ∃ s1 fn hl1 syms1 T1, internField s e.fieldName = .ok (s1, fn) ∧ SymInv imports s1 hl1 syms1 T1 ∧
      T.symbols <+: T1.symbols ∧ ((e.fieldName = none ∧ fn = none) ∨
        ∃ f tok, e.fieldName = some f ∧ fn = some (.tok tok) ∧ Interned T1 f tok) := by
    cases hf : e.fieldName with
    | none => exact ⟨s, none, hl, syms, T, rfl, hinv, List.prefix_refl _, .inl ⟨rfl, rfl⟩⟩
    | some f =>
      obtain ⟨hne, hgood⟩ := he.field f hf
      obtain ⟨s1, tok, syms1, T1, h1, h2, h3, h4⟩ := internSymbol_spec hg hinv h0 f hgood
      refine ⟨s1, some (.tok tok), true, syms1, T1, ?_, h2, h3, .inr ⟨f, tok, rfl, rfl, h4⟩⟩
      have : truthyArg f = true := by
        cases f with
        | tok k => rfl
        | text t => cases t with
          | nil => exact absurd rfl hne
          | cons c t => rfl
      simp [internField, this, h1, bind, Except.bind, pure, Except.pure]
  obtain ⟨s1, fn, hl1, syms1, T1, h1, h2, h3, h4⟩ := hfield
  obtain ⟨s2, toks, hl2, syms2, T2, k1, k2, k3, k4⟩ := internAll_spec hg h0 e.annotations he.ann h2
  have hfield2 : (e.fieldName = none ∧ fn = none) ∨
        ∃ f tok, e.fieldName = some f ∧ fn = some (.tok tok) ∧ Interned T2 f tok := by
    rcases h4 with h | ⟨f, tok, a, b, c⟩
    · exact .inl h
    · exact .inr ⟨f, tok, a, b, c.mono k3⟩
  unfold internSymbols
  simp only [bind, Except.bind, pure, Except.pure, h1, k1]
  by_cases hty : e.ionType = some .symbol
  · rw [if_pos hty]
    rcases he.value hty with hv | ⟨v, a, hv, hva, hga⟩
    · rw [hv]
      exact ⟨s2, _, hl2, syms2, T2, rfl, k2, h3.trans k3, ⟨rfl, rfl, hfield2, ⟨toks, rfl, k4⟩, .inr (.inl ⟨hty, hv, by simp [hv]⟩)⟩⟩
    · rw [hv]
      obtain ⟨s3, tok, syms3, T3, m1, m2, m3, m4⟩ := internSymbol_spec hg k2 h0 a hga
      have hsa : symArgOfValue v = .ok a := by
        cases v <;> simp [symbolOfValue] at hva <;> subst hva <;> rfl
      simp only [hsa, m1]
      refine ⟨s3, _, true, syms3, T3, rfl, m2, (h3.trans k3).trans m3, ⟨rfl, rfl, ?_, ⟨toks, rfl, forall₂_mono m3 k4⟩,
        .inr (.inr ⟨v, a, tok, hty, hv, hva, rfl, m4⟩)⟩⟩
      rcases hfield2 with h | ⟨f, tok, a, b, c⟩
      · exact .inl h
      · exact .inr ⟨f, tok, a, b, c.mono m3⟩
  · rw [if_neg hty]
    exact ⟨s2, _, hl2, syms2, T2, rfl, k2, h3.trans k3, ⟨rfl, rfl, hfield2, ⟨toks, rfl, k4⟩, .inl ⟨hty, rfl⟩⟩⟩

/-! ## Runs -/

/-- State of the writer after some events since the last flush. -/
structure Reached (imports : Option (List SymbolTable)) (s : State) (evs : List IonEvent) (tU : Tree Unit) : Prop where
  ivm : s.ivmNeeded = false
  sound : ∃ evs' hl syms T tr, SymInv imports s.sym hl syms T ∧ List.Forall₂ (EventRel T) evs evs' ∧
    Tree.empty.run argSid (·.sid) evs' = some tr ∧ tU.opens.map (·.ty) = tr.opens.map (·.ty) ∧
    runEvents RawWriter.step RawWriter.init evs' = ([], .ok s.value) ∧ ∀ e ∈ evs', RegularEvent e ∧ EncodableEvent e

/-- Ready to write the next event: nothing written yet, or something. -/
def Going (imports : Option (List SymbolTable)) (s : State) (evs : List IonEvent) (tU : Tree Unit) : Prop :=
  (s.hasWritten = true ∧ Reached imports s evs tU) ∨
  (s.hasWritten = false ∧ s.value = init.value ∧ s.sym = init.sym ∧ evs = [] ∧ tU = Tree.empty)

theorem forall₂_rel_mono {T T' : SymbolTable} (hp : T.symbols <+: T'.symbols) {a b : List IonEvent}
    (h : List.Forall₂ (EventRel T) a b) : List.Forall₂ (EventRel T') a b := by
  induction h with
  | nil => exact .nil
  | cons h _ ih => exact .cons (h.mono hp) ih

theorem writeValue_spec {imports : Option (List SymbolTable)} (hg : ∀ t ∈ imports.getD [], GoodImport t)
    {T0 : SymbolTable} (h0 : SymbolTable.new .local [] (imports := imports) = .ok T0) {s : State} {evs : List IonEvent}
    {tU tU' : Tree Unit} (hgo : Going imports s evs tU) (e : IonEvent) (he : SymbolsOK T0.symbols.length e)
    (hr : RegularEvent e) (hen : EncodableEvent e)
    (hs : tU.step (fun _ => some ()) (fun _ => some ()) (asToken e) = some tU') :
    ∃ s', writeValue imports s e = .ok (.needsInput, s') ∧ s'.hasWritten = true ∧ Reached imports s' (evs ++ [e]) tU' := by
  have hstart : ∃ sym evs' hl syms T tr, (if s.hasWritten then .ok s.sym else startLst imports s.sym : Except PyErr SymState)
      = .ok sym ∧ SymInv imports sym hl syms T ∧ List.Forall₂ (EventRel T) evs evs' ∧
      Tree.empty.run argSid (·.sid) evs' = some tr ∧ tU.opens.map (·.ty) = tr.opens.map (·.ty) ∧
      runEvents RawWriter.step RawWriter.init evs' = ([], .ok s.value) ∧ (∀ e ∈ evs', RegularEvent e ∧ EncodableEvent e) ∧
      (s.hasWritten = true → s.ivmNeeded = false) := by
    rcases hgo with ⟨hw, hivm, evs', hl, syms, T, tr, h1, h2, h3, h4, h5, h6⟩ | ⟨hw, hval, hsym, rfl, rfl⟩
    · exact ⟨s.sym, evs', hl, syms, T, tr, by simp [hw], h1, h2, h3, h4, h5, h6, fun _ => hivm⟩
    · obtain ⟨sym, T, h1, h2⟩ := startLst_spec imports hg
      refine ⟨sym, [], false, [], T, Tree.empty, by simp [hw, hsym, h1], h2, .nil, rfl, rfl, ?_, by simp, by simp [hw]⟩
      rw [hval]; rfl
  obtain ⟨sym, evs', hl, syms, T, tr, h1, h2, h3, h4, h5, h6, h7, h8⟩ := hstart
  obtain ⟨sym', e', hl', syms', T', k1, k2, k3, k4⟩ := internSymbols_spec hg h0 e he h2
  obtain ⟨tr', k5, k6⟩ := k4.defined h5 hs
  obtain ⟨k7, k8⟩ := k4.regular hr hen
  have hrun' : Tree.empty.run argSid (·.sid) (evs' ++ [e']) = some tr' := by
    rw [run_append, h4]; simp [Tree.run, k5]
  have hall : ∀ x ∈ evs' ++ [e'], RegularEvent x ∧ EncodableEvent x := by
    intro x hx
    rcases List.mem_append.1 hx with hx | hx
    · exact h7 x hx
    · rw [List.mem_singleton.1 hx]; exact ⟨k7, k8⟩
  obtain ⟨v', hv', -⟩ := (RawWriter.run_spec _ RawWriter.init Tree.empty _ RawWriter.inv_init hrun'
    (fun x hx => (hall x hx).1)).1 (fun x hx => (hall x hx).2)
  obtain ⟨v1, hv1, hv2⟩ := run_split hv'
  rw [h6] at hv1
  simp only [Prod.mk.injEq, Except.ok.injEq, true_and] at hv1
  subst hv1
  have hh : ∃ cs w, RawWriter.handle s.value e' = .ok (cs, w, v') ∧ w = .needsInput := by
    simp only [runEvents, RawWriter.step] at hv2
    cases hh : RawWriter.handle s.value e' with
    | error err => rw [hh] at hv2; simp at hv2
    | ok p =>
      obtain ⟨cs, w, s1⟩ := p
      rw [hh] at hv2
      simp only [List.append_nil, Prod.mk.injEq, Except.ok.injEq] at hv2
      obtain ⟨-, rfl⟩ := hv2
      refine ⟨cs, w, rfl, ?_⟩
      have hne : e'.eventType ≠ .streamEnd := by
        intro hc
        unfold Tree.step at k5
        rw [hc] at k5
        cases k5
      unfold RawWriter.handle at hh
      simp only [bind, Except.bind, pure, Except.pure] at hh
      repeat' split at hh
      all_goals first
        | cases hh; done
        | (rename_i hse _ _; exact absurd hse hne)
        | (rename_i hse _ _ _ _; exact absurd hse hne)
        | (simp only [Except.ok.injEq, Prod.mk.injEq] at hh; exact hh.2.1.symm)
  obtain ⟨cs, w, hh, rfl⟩ := hh
  refine ⟨⟨v', sym', true, if s.hasWritten then s.ivmNeeded else false⟩, ?_, rfl, ?_⟩
  · simp [writeValue, h1, k1, hh, bind, Except.bind, pure, Except.pure]
  · refine ⟨?_, evs' ++ [e'], hl', syms', T', tr', k2, ?_, hrun', k6, hv', hall⟩
    · cases hw : s.hasWritten with
      | false => rfl
      | true => simpa using h8 hw
    · exact List.rel_append (forall₂_rel_mono k3 h3) (.cons k4 .nil)

theorem step_value (imports : Option (List SymbolTable)) (s : State) (e : IonEvent) (h1 : e.eventType ≠ .versionMarker)
    (h2 : e.eventType ≠ .streamEnd) :
    step imports s e = (if !s.hasWritten && s.ivmNeeded then [IVM] else [], writeValue imports s e) := by
  unfold step
  cases he : e.eventType <;> simp_all

theorem unit_step_kind {tU tU' : Tree Unit} {e : IonEvent}
    (hs : tU.step (fun _ => some ()) (fun _ => some ()) (asToken e) = some tU') :
    e.eventType ≠ .versionMarker ∧ e.eventType ≠ .streamEnd ∧ e.eventType ≠ .incomplete := by
  have := (asToken_facts e).1
  unfold Tree.step at hs
  refine ⟨?_, ?_, ?_⟩ <;> intro h <;> rw [this, h] at hs <;> cases hs

theorem run_values {imports : Option (List SymbolTable)} (hg : ∀ t ∈ imports.getD [], GoodImport t)
    {T0 : SymbolTable} (h0 : SymbolTable.new .local [] (imports := imports) = .ok T0) (more : List IonEvent) {s : State}
    {evs : List IonEvent} {tU tU' : Tree Unit} (hgo : s.hasWritten = true ∧ Reached imports s evs tU)
    (hm : ∀ e ∈ more, SymbolsOK T0.symbols.length e ∧ RegularEvent e ∧ EncodableEvent e)
    (hs : tU.run (fun _ => some ()) (fun _ => some ()) (more.map asToken) = some tU') :
    ∃ s', runEvents (step imports) s more = ([], .ok s') ∧ s'.hasWritten = true ∧ Reached imports s' (evs ++ more) tU' := by
  induction more generalizing s evs tU with
  | nil =>
    simp only [List.map_nil, Tree.run, Option.some.injEq] at hs
    subst hs
    exact ⟨s, rfl, hgo.1, by simpa using hgo.2⟩
  | cons e more ih =>
    simp only [List.map_cons, Tree.run, Option.bind_eq_some_iff] at hs
    obtain ⟨t1, ht1, hs⟩ := hs
    obtain ⟨m1, m2, m3⟩ := hm e (by simp)
    obtain ⟨s1, k1, k2, k3⟩ := writeValue_spec hg h0 (.inl hgo) e m1 m2 m3 ht1
    obtain ⟨n1, n2, -⟩ := unit_step_kind ht1
    obtain ⟨s2, j1, j2, j3⟩ := ih ⟨k2, k3⟩ (fun e' h' => hm e' (by simp [h'])) hs
    refine ⟨s2, ?_, j2, by simpa using j3⟩
    simp [runEvents, step_value imports s e n1 n2, hgo.1, k1, j1]


theorem split_run {S : Type} {step : S → IonEvent → WriterStep S} {s s' : S} {a b : List IonEvent} {cs : List Bytes} {s1 : S}
    (ha : runEvents step s a = ([], .ok s1)) (h : runEvents step s (a ++ b) = (cs, .ok s')) :
    runEvents step s1 b = (cs, .ok s') := by
  rw [RawWriter.runEvents_append, ha] at h
  simp only [List.nil_append, Prod.mk.injEq] at h
  exact Prod.ext h.1 h.2

/-- The end of the stream, from a run of the raw writer. -/
theorem end_of_run {s s' : RawWriter.State} {cs : List Bytes}
    (h : runEvents RawWriter.step s [ION_STREAM_END_EVENT] = (cs, .ok s')) :
    ∃ w, RawWriter.handle s ION_STREAM_END_EVENT = .ok (cs, w, s') := by
  simp only [runEvents, RawWriter.step] at h
  cases hh : RawWriter.handle s ION_STREAM_END_EVENT with
  | error err => rw [hh] at h; simp at h
  | ok p =>
    obtain ⟨c, w, s1⟩ := p
    rw [hh] at h
    simp only [List.append_nil, Prod.mk.injEq, Except.ok.injEq] at h
    obtain ⟨rfl, rfl⟩ := h
    exact ⟨w, rfl⟩

/-- The events that end a symbol table. -/
def lstEnds (hl : Bool) : List IonEvent := if hl then [containerEnd, containerEnd] else [containerEnd]

theorem lst_values (imports : List SymbolTable) (h : ∀ t ∈ imports, GoodImport t) (hl : Bool) (syms : List Text) :
    Tree.empty.run argSid (·.sid) (lstEvents imports hl syms ++ lstEnds hl) = some ⟨[lstNode imports hl syms], []⟩ := by
  rw [run_append, run_lst imports h hl syms]
  cases hl <;> simp [lstEnds, Tree.run, Tree.step, containerEnd, lstNode, lstHead]

theorem finish_lst {imports : Option (List SymbolTable)} (hg : ∀ t ∈ imports.getD [], GoodImport t) {s : SymState}
    {hl : Bool} {syms : List Text} {T : SymbolTable} (hinv : SymInv imports s hl syms T) :
    ∃ cs, finishSymbols imports s = .ok cs ∧ IsItems false cs.flatten
      (if hl = true ∨ imports.getD [] ≠ [] then [lstNode (imports.getD []) hl syms] else []) := by
  by_cases hc : hl = true ∨ imports.getD [] ≠ []
  · rw [if_pos hc]
    have hv := lst_values (imports.getD []) hg hl syms
    have hok : ∀ e ∈ lstEvents (imports.getD []) hl syms ++ lstEnds hl, RegularEvent e ∧ EncodableEvent e := by
      intro e he
      rcases List.mem_append.1 he with he | he
      · exact lst_events_ok _ hg hl syms hinv.enc e he
      · have : e = containerEnd := by
          cases hl <;> simp [lstEnds] at he <;> exact he
        subst this
        exact ⟨fun h => by simp [containerEnd] at h, fun h => by simp [containerEnd] at h⟩
    obtain ⟨r1, hr1, -⟩ := (RawWriter.run_spec _ RawWriter.init Tree.empty _ RawWriter.inv_init hv
      (fun x hx => (hok x hx).1)).1 (fun x hx => (hok x hx).2)
    obtain ⟨cs, hcs, hits⟩ := (RawWriter.C11_raw_writer_encodes _ _ (by unfold rawValues valuesOf; rw [hv])
      (fun x hx => (hok x hx).1)).1 (fun x hx => (hok x hx).2)
    obtain ⟨w, hw⟩ := end_of_run (split_run hr1 hcs)
    have hr2 := split_run hinv.raw hr1
    refine ⟨cs ++ [[]], ?_, by simpa using hits⟩
    have hcond : (s.hasLocal || !(imports.getD []).isEmpty) = true := by
      rw [hinv.hasLocal]
      rcases hc with hc | hc
      · simp [hc]
      · cases hi : imports.getD [] with
        | nil => exact absurd hi hc
        | cons => simp
    unfold finishSymbols
    rw [if_pos hcond, hinv.hasLocal]
    cases hl with
    | true =>
      obtain ⟨r3, h3, h4⟩ := run_split (a := [containerEnd]) (b := [containerEnd]) hr2
      simp [write_of_run h3, write_of_run h4, hw, bind, Except.bind, pure, Except.pure]
    | false =>
      simp only [lstEnds, Bool.false_eq_true, if_false] at hr2
      simp [write_of_run hr2, hw, bind, Except.bind, pure, Except.pure]
  · rw [if_neg hc]
    refine ⟨[], ?_, .nil _⟩
    have : (s.hasLocal || !(imports.getD []).isEmpty) = false := by
      rw [hinv.hasLocal]
      simp only [not_or, Bool.not_eq_true, ne_eq, Decidable.not_not] at hc
      simp [hc.1, hc.2]
    unfold finishSymbols
    simp [this]

theorem run_rel {T : SymbolTable} {evs evs' : List IonEvent} (h : List.Forall₂ (EventRel T) evs evs') (t : Tree Nat) :
    t.run argSid (·.sid) evs' = t.run (idIn T) (idInTok T) (evs.map asToken) := by
  induction h generalizing t with
  | nil => rfl
  | cons h _ ih =>
    simp only [List.map_cons, Tree.run, h.step_eq t]
    cases t.step (idIn T) (idInTok T) (asToken _) with
    | none => rfl
    | some t1 => exact ih t1

/-- The end of the stream after a complete document. -/
theorem finish_spec {imports : Option (List SymbolTable)} (hg : ∀ t ∈ imports.getD [], GoodImport t) {s : State}
    {evs : List IonEvent} {tU : Tree Unit} (hw : s.hasWritten = true) (hr : Reached imports s evs tU) (ho : tU.opens = []) :
    ∃ chunks syms T hl forest, step imports s ION_STREAM_END_EVENT = (chunks, .ok (.complete, init)) ∧
      SymInv imports s.sym hl syms T ∧
      valuesOf (idIn T) (idInTok T) (evs.map asToken) = some forest ∧
      IsItems false chunks.flatten
        ((if hl = true ∨ imports.getD [] ≠ [] then [lstNode (imports.getD []) hl syms] else []) ++ forest) := by
  obtain ⟨hivm, evs', hl, syms, T, tr, h1, h2, h3, h4, h5, h6⟩ := hr
  obtain ⟨cs, hcs, hits⟩ := finish_lst hg h1
  obtain ⟨forest, os⟩ := tr
  have hos : os = [] := by
    rw [ho] at h4
    simpa using h4.symm
  subst hos
  obtain ⟨vs, hvs, hvits⟩ := (RawWriter.C11_raw_writer_encodes evs' forest (by unfold rawValues valuesOf; rw [h3])
      (fun x hx => (h6 x hx).1)).1 (fun x hx => (h6 x hx).2)
  obtain ⟨w, hw'⟩ := end_of_run (split_run h5 hvs)
  refine ⟨cs ++ [[]] ++ vs ++ [[]], syms, T, hl, forest, ?_, h1, ?_, ?_⟩
  · show (match ION_STREAM_END_EVENT.eventType with | _ => _) = _
    simp only [ION_STREAM_END_EVENT] at hw' ⊢
    simp [step, hw, hcs, hw', ION_STREAM_END_EVENT]
  · unfold valuesOf
    rw [← run_rel h2, h3]
  · simpa using hits.append hvits


/-! ## C14 -/

/-- `items` is the content of one segment of binary Ion for the values of `evs`: a local symbol table that declares the
imports and the symbols `syms` (left out if it would be empty), then the values, in which every symbol is the ID that the
table `T`, which results from this declaration, gives to it.  Local symbols are declared once, and only if neither the
system symbols nor the imports have them. -/
def Encodes (imports : Option (List SymbolTable)) (evs : List IonEvent) (items : List (Spec.Node Nat)) : Prop :=
  ∃ (syms : List Text) (T : SymbolTable) (hl : Bool) (forest : List (Spec.Node Nat)),
    SymbolTable.new .local (syms.map some) (imports := imports) = .ok T ∧ syms.Nodup ∧
    (∀ T0, SymbolTable.new .local [] (imports := imports) = .ok T0 → ∀ t ∈ syms, ∀ k ∈ T0.symbols, k.text ≠ some t) ∧
    (hl = false → syms = []) ∧
    valuesOf (idIn T) (idInTok T) (evs.map asToken) = some forest ∧
    items = (if hl = true ∨ imports.getD [] ≠ [] then [lstNode (imports.getD []) hl syms] else []) ++ forest

/-- The output of a writer with these imports, for the values between two flushes. -/
theorem batch_spec {imports : Option (List SymbolTable)} (hg : ∀ t ∈ imports.getD [], GoodImport t)
    {T0 : SymbolTable} (h0 : SymbolTable.new .local [] (imports := imports) = .ok T0) (evs : List IonEvent)
    (hne : evs ≠ []) (hb : Balanced evs) (hm : ∀ e ∈ evs, SymbolsOK T0.symbols.length e ∧ RegularEvent e ∧ EncodableEvent e)
    (b : Bool) :
    ∃ chunks items, runEvents (step imports) ({ init with ivmNeeded := b } : State) (evs ++ [ION_STREAM_END_EVENT])
        = ((if b then [IVM] else []) ++ chunks, .ok init) ∧
      Encodes imports evs items ∧ IsItems false chunks.flatten items := by
  cases evs with
  | nil => exact absurd rfl hne
  | cons e more =>
    unfold Balanced valuesOf at hb
    split at hb
    · rename_i vs hrun
      simp only [List.map_cons, Tree.run, Option.bind_eq_some_iff] at hrun
      obtain ⟨t1, ht1, hrun⟩ := hrun
      obtain ⟨m1, m2, m3⟩ := hm e (by simp)
      have hgo : Going imports ({ init with ivmNeeded := b } : State) [] Tree.empty := .inr ⟨rfl, rfl, rfl, rfl, rfl⟩
      obtain ⟨s1, k1, k2, k3⟩ := writeValue_spec hg h0 hgo e m1 m2 m3 ht1
      obtain ⟨n1, n2, -⟩ := unit_step_kind ht1
      obtain ⟨s2, j1, j2, j3⟩ := run_values hg h0 more ⟨k2, k3⟩ (fun e' h' => hm e' (by simp [h'])) hrun
      obtain ⟨chunks, syms, T, hl, forest, f1, f2, f3, f4⟩ := finish_spec hg j2 j3 rfl
      refine ⟨chunks, _, ?_, ⟨syms, T, hl, forest, f2.new, f2.nodup, f2.fresh, f2.none, by simpa using f3, rfl⟩, f4⟩
      rw [List.cons_append]
      simp only [runEvents, step_value imports _ e n1 n2, k1]
      rw [RawWriter.runEvents_append, j1]
      simp [runEvents, f1, init]
    · exact absurd rfl hb

/-- **C14** The output of the binary writer for complete documents, between whose flushes stand any values, nested to any
depth, with any symbols: one segment for each flush, which begins with a version marker and declares its symbols before
it uses them. -/
theorem C14_binary_writer_segment (imports : Option (List SymbolTable)) (hg : ∀ t ∈ imports.getD [], GoodImport t)
    (T0 : SymbolTable) (h0 : SymbolTable.new .local [] (imports := imports) = .ok T0) (evs : List IonEvent)
    (hne : evs ≠ []) (hb : Balanced evs) (hm : ∀ e ∈ evs, SymbolsOK T0.symbols.length e ∧ RegularEvent e ∧ EncodableEvent e) :
    ∃ chunks items, runEvents (step imports) init (evs ++ [ION_STREAM_END_EVENT]) = (chunks, .ok init) ∧
      Encodes imports evs items ∧ IsStream chunks.flatten [items] := by
  obtain ⟨chunks, items, h1, h2, h3⟩ := batch_spec hg h0 evs hne hb hm true
  refine ⟨_, items, h1, h2, ?_⟩
  have := IsStream.segment chunks.flatten [] items [] h3 .nil
  simpa [IVM] using this

/-- What a user sends between two flushes: some version markers, then complete values. -/
structure Batch where
  markers : Nat
  values : List IonEvent

/-- The events of a batch, with the flush. -/
def Batch.events (b : Batch) : List IonEvent :=
  List.replicate b.markers ION_VERSION_MARKER_EVENT ++ b.values ++ [ION_STREAM_END_EVENT]

/-- The batch produces output. -/
def Batch.isEmpty (b : Batch) : Bool := b.markers = 0 ∧ b.values = []

theorem step_marker (imports : Option (List SymbolTable)) (b : Bool) :
    step imports ({ init with ivmNeeded := b } : State) ION_VERSION_MARKER_EVENT =
      (if b then [IVM] else [], .ok (.needsInput, { init with ivmNeeded := false })) := rfl

theorem run_markers (imports : Option (List SymbolTable)) (n : Nat) :
    runEvents (step imports) ({ init with ivmNeeded := false } : State) (List.replicate n ION_VERSION_MARKER_EVENT)
      = ([], .ok { init with ivmNeeded := false }) := by
  induction n with
  | zero => rfl
  | succ n ih => simp [List.replicate_succ, runEvents, step_marker, ih]

/-- **C14** (several flushes) A writer flushed any number of times, with or without values and explicit version markers
between the flushes, produces a stream with one segment for each non-empty batch: each begins with a version marker and
its own symbol table, independent of the symbols of other segments. -/
theorem C14_binary_writer_stream (imports : Option (List SymbolTable)) (hg : ∀ t ∈ imports.getD [], GoodImport t)
    (T0 : SymbolTable) (h0 : SymbolTable.new .local [] (imports := imports) = .ok T0) (batches : List Batch)
    (hb : ∀ b ∈ batches, Balanced b.values ∧
      ∀ e ∈ b.values, SymbolsOK T0.symbols.length e ∧ RegularEvent e ∧ EncodableEvent e) :
    ∃ chunks segs, runEvents (step imports) init (batches.flatMap Batch.events) = (chunks, .ok init) ∧
      IsStream chunks.flatten segs ∧
      List.Forall₂ (fun b items => (b.values = [] ∧ items = []) ∨ Encodes imports b.values items)
        (batches.filter fun b => !b.isEmpty) segs := by
  induction batches with
  | nil => exact ⟨[], [], rfl, .nil, .nil⟩
  | cons b batches ih =>
    obtain ⟨cs, segs, h1, h2, h3⟩ := ih (fun b' h' => hb b' (by simp [h']))
    obtain ⟨hbal, hm⟩ := hb b (by simp)
    -- the batch on its own
    have hbatch : ∃ c, runEvents (step imports) init b.events = (c, .ok init) ∧
        (b.isEmpty = true → c = []) ∧ (b.isEmpty = false → ∃ body items, c.flatten = IVM ++ body ∧ IsItems false body items ∧
          ((b.values = [] ∧ items = []) ∨ Encodes imports b.values items)) := by
      obtain ⟨n, evs⟩ := b
      cases n with
      | zero =>
        by_cases he : evs = []
        · subst he
          exact ⟨[], rfl, fun _ => rfl, fun h => by simp [Batch.isEmpty] at h⟩
        · obtain ⟨chunks, items, k1, k2, k3⟩ := batch_spec hg h0 evs he hbal hm true
          have k1' : runEvents (step imports) init (evs ++ [ION_STREAM_END_EVENT]) = _ := k1
          exact ⟨_, by simpa [Batch.events] using k1', fun h => by simp [Batch.isEmpty, he] at h,
            fun _ => ⟨chunks.flatten, items, by simp, k3, .inr k2⟩⟩
      | succ n =>
        have hrep : runEvents (step imports) init (List.replicate (n + 1) ION_VERSION_MARKER_EVENT)
            = ([IVM], .ok { init with ivmNeeded := false }) := by
          have := step_marker imports true
          simp only [if_true] at this
          have hi : ({ init with ivmNeeded := true } : State) = init := rfl
          rw [hi] at this
          simp [List.replicate_succ, runEvents, this, run_markers]
        by_cases he : evs = []
        · subst he
          refine ⟨[IVM], ?_, fun h => by simp [Batch.isEmpty] at h, fun _ => ⟨[], [], by simp, .nil _, .inl ⟨rfl, rfl⟩⟩⟩
          simp only [Batch.events, List.append_nil]
          rw [RawWriter.runEvents_append, hrep]
          rfl
        · obtain ⟨chunks, items, k1, k2, k3⟩ := batch_spec hg h0 evs he hbal hm false
          refine ⟨[IVM] ++ chunks, ?_, fun h => by simp [Batch.isEmpty] at h,
            fun _ => ⟨chunks.flatten, items, by simp, k3, .inr k2⟩⟩
          simp only [Batch.events, List.append_assoc]
          rw [RawWriter.runEvents_append, hrep]
          simp [k1]
    obtain ⟨c, hc, hc1, hc2⟩ := hbatch
    have hrun : runEvents (step imports) init ((b :: batches).flatMap Batch.events) = (c ++ cs, .ok init) := by
      rw [List.flatMap_cons, RawWriter.runEvents_append, hc]
      simp [h1]
    cases hbe : b.isEmpty with
    | true =>
      refine ⟨c ++ cs, segs, hrun, by simpa [hc1 hbe] using h2, ?_⟩
      simpa [List.filter_cons, hbe] using h3
    | false =>
      obtain ⟨body, items, e1, e2, e3⟩ := hc2 hbe
      refine ⟨c ++ cs, items :: segs, hrun, ?_, ?_⟩
      · have := IsStream.segment body cs.flatten items segs e2 h2
        simpa [e1, IVM] using this
      · simpa [List.filter_cons, hbe] using And.intro e3 h3


/-! ## C29 -/

/-- Whether there was an event other than a version marker since the last flush. -/
def written : Bool → List IonEvent → Bool
  | w, [] => w
  | w, e :: es => match e.eventType with
    | .streamEnd => written false es
    | .versionMarker => written w es
    | _ => written true es

/-- What makes an event ill formed after a history that leaves the containers `opens` open. -/
inductive Bad (opens : List (Option IonType)) (w : Bool) (e : IonEvent) : Prop
  | unmatchedEnd : e.eventType = .containerEnd → opens = [] → Bad opens w e
  | streamEndInside : e.eventType = .streamEnd → opens ≠ [] → Bad opens w e
  | lateMarker : e.eventType = .versionMarker → w = true → Bad opens w e
  | incomplete : e.eventType = .incomplete → Bad opens w e
  | notContainer : e.eventType = .containerStart → e.ionType.bind ctype = none → Bad opens w e
  | noFieldName : e.eventType = .scalar ∨ e.eventType = .containerStart → opens.head? = some (some .struct) →
      e.fieldName = none ∨ e.fieldName = some (.text []) → Bad opens w e
  | unknownSymbol (k : SymbolToken) : e.eventType = .scalar ∨ e.eventType = .containerStart →
      (e.fieldName = some (.tok k) ∨ .tok k ∈ e.annotations) → k.text = none → k.sid = none → Bad opens w e
  | untyped : e.eventType = .scalar → e.ionType = none → Bad opens w e
  | raising (err : PyErr) : e.eventType = .scalar → e.value = .error err → Bad opens w e
  | notSymbol (v : PyVal) : e.eventType = .scalar → e.ionType = some .symbol → e.value = .ok (some v) →
      symbolOfValue v = none → Bad opens w e
  | mismatch (ty : IonType) (v : PyVal) : e.eventType = .scalar → e.ionType = some ty → ty ≠ .symbol →
      e.value = .ok (some v) → denote (σ := Nat) (·.sid) ty (some v) = none → ¬ RawWriter.Lenient ty v → Bad opens w e

theorem internSymbol_unknown (s : SymState) (k : SymbolToken) (h1 : k.text = none) (h2 : k.sid = none) :
    ∃ err, internSymbol s (.tok k) = .error err := by
  unfold internSymbol
  cases s.table with
  | none => exact ⟨_, rfl⟩
  | some T =>
    simp only [bind, Except.bind, pure, Except.pure, symbolKey, h1, h2]
    split
    · exact ⟨_, rfl⟩
    · exact ⟨_, rfl⟩

theorem internAll_unknown (as : List SymArg) (k : SymbolToken) (h1 : k.text = none) (h2 : k.sid = none) (hk : .tok k ∈ as)
    (s : SymState) : ∃ err, internAll s as = .error err := by
  induction as generalizing s with
  | nil => simp at hk
  | cons a as ih =>
    simp only [internAll, bind, Except.bind]
    rcases List.mem_cons.1 hk with rfl | hk
    · obtain ⟨err, he⟩ := internSymbol_unknown s k h1 h2
      exact ⟨err, by rw [he]⟩
    · cases internSymbol s a with
      | error err => exact ⟨err, rfl⟩
      | ok p =>
        obtain ⟨err, he⟩ := ih hk p.1
        exact ⟨err, by simp [he]⟩

/-- What interning keeps of an event. -/
theorem internSymbols_keeps {s s' : SymState} {e e' : IonEvent} (h : internSymbols s e = .ok (s', e')) :
    e'.eventType = e.eventType ∧ e'.ionType = e.ionType ∧ (e.ionType ≠ some .symbol → e'.value = e.value) ∧
    (e.fieldName = none ∨ e.fieldName = some (.text []) → e'.fieldName = e.fieldName) ∧
    (e.ionType = some .symbol → ∃ v, e.value = .ok v ∧ ∀ w, v = some w → ∃ a, symbolOfValue w = some a) ∧
    ∀ k : SymbolToken, (e.fieldName = some (.tok k) ∨ .tok k ∈ e.annotations) → ¬ (k.text = none ∧ k.sid = none) := by
  unfold internSymbols at h
  simp only [bind, Except.bind, pure, Except.pure] at h
  cases hf : internField s e.fieldName with
  | error err => rw [hf] at h; cases h
  | ok p =>
    obtain ⟨s1, fn⟩ := p
    rw [hf] at h
    simp only at h
    cases ha : internAll s1 e.annotations with
    | error err => rw [ha] at h; cases h
    | ok q =>
      obtain ⟨s2, ann⟩ := q
      rw [ha] at h
      simp only at h
      have hfn : e.fieldName = none ∨ e.fieldName = some (.text []) → fn = e.fieldName := by
        intro hc
        rcases hc with hc | hc <;> rw [hc] at hf <;> simp [internField, truthyArg] at hf <;> rw [hc] <;> exact hf.2.symm
      have hk : ∀ k : SymbolToken, (e.fieldName = some (.tok k) ∨ .tok k ∈ e.annotations) → ¬ (k.text = none ∧ k.sid = none) := by
        intro k hk ⟨h1, h2⟩
        rcases hk with hk | hk
        · rw [hk] at hf
          obtain ⟨err, he⟩ := internSymbol_unknown s k h1 h2
          simp [internField, truthyArg, he, bind, Except.bind] at hf
        · obtain ⟨err, he⟩ := internAll_unknown _ k h1 h2 hk s1
          rw [he] at ha; cases ha
      by_cases hty : e.ionType = some .symbol
      · rw [if_pos hty] at h
        cases hv : e.value with
        | error err => rw [hv] at h; cases h
        | ok v =>
          rw [hv] at h
          cases v with
          | none =>
            simp only [Except.ok.injEq, Prod.mk.injEq] at h
            obtain ⟨-, rfl⟩ := h
            exact ⟨rfl, rfl, fun hc => absurd hty hc, hfn, fun _ => ⟨none, rfl, by simp⟩, hk⟩
          | some v =>
            simp only at h
            cases hsa : symArgOfValue v with
            | error err => rw [hsa] at h; cases h
            | ok a =>
              rw [hsa] at h
              simp only at h
              cases hi : internSymbol s2 a with
              | error err => rw [hi] at h; cases h
              | ok r =>
                rw [hi] at h
                simp only [Except.ok.injEq, Prod.mk.injEq] at h
                obtain ⟨-, rfl⟩ := h
                refine ⟨rfl, rfl, fun hc => absurd hty hc, hfn, fun _ => ⟨some v, rfl, ?_⟩, hk⟩
                intro w hw
                simp only [Option.some.injEq] at hw
                subst hw
                cases v <;> simp [symArgOfValue] at hsa <;> exact ⟨_, rfl⟩
      · rw [if_neg hty] at h
        simp only [Except.ok.injEq, Prod.mk.injEq] at h
        obtain ⟨-, rfl⟩ := h
        exact ⟨rfl, rfl, fun _ => rfl, hfn, fun hc => absurd hc hty, hk⟩

/-- A value event that is accepted. -/
theorem writeValue_frames {imports : Option (List SymbolTable)} {s s' : State} {e : IonEvent} {w : WriteEventType}
    (h : writeValue imports s e = .ok (w, s')) :
    s'.value.frames.map (fun f => some f.ty) = RawWriter.openTypes (s.value.frames.map (fun f => some f.ty)) [e] ∧
    s'.hasWritten = true := by
  unfold writeValue at h
  simp only [bind, Except.bind, pure, Except.pure] at h
  split at h
  · cases h
  · split at h
    · cases h
    · rename_i sym _ p hp
      obtain ⟨sym', e'⟩ := p
      simp only at h
      split at h
      · cases h
      · rename_i q hq
        obtain ⟨cs, w', v⟩ := q
        simp only [Except.ok.injEq, Prod.mk.injEq] at h
        obtain ⟨-, rfl⟩ := h
        have hf := RawWriter.handle_frames _ _ _ _ _ hq
        have hk := internSymbols_keeps hp
        refine ⟨?_, rfl⟩
        simp only [RawWriter.openTypes, hk.1, hk.2.1] at hf ⊢
        exact hf

/-- The state reflects the history. -/
theorem run_history (imports : Option (List SymbolTable)) (evs : List IonEvent) (s s' : State) (out : List Bytes)
    (h : runEvents (step imports) s evs = (out, .ok s')) (hs : s.hasWritten = false → s.value.frames = []) :
    s'.value.frames.map (fun f => some f.ty) = RawWriter.openTypes (s.value.frames.map (fun f => some f.ty)) evs ∧
    s'.hasWritten = written s.hasWritten evs ∧ (s'.hasWritten = false → s'.value.frames = []) := by
  induction evs generalizing s out with
  | nil =>
    simp only [runEvents, Prod.mk.injEq, Except.ok.injEq] at h
    obtain ⟨-, rfl⟩ := h
    exact ⟨rfl, rfl, hs⟩
  | cons e evs ih =>
    have hone : ∀ s1 cs w, step imports s e = (cs, .ok (w, s1)) →
        s1.value.frames.map (fun f => some f.ty) = RawWriter.openTypes (s.value.frames.map (fun f => some f.ty)) [e] ∧
        s1.hasWritten = written s.hasWritten [e] ∧ (s1.hasWritten = false → s1.value.frames = []) := by
      intro s1 cs w hstep
      by_cases h1 : e.eventType = .versionMarker
      · simp only [step, h1] at hstep
        split at hstep
        · cases hstep
        · simp only [Prod.mk.injEq, Except.ok.injEq] at hstep
          obtain ⟨-, -, rfl⟩ := hstep
          exact ⟨by simp [RawWriter.openTypes, h1], by simp [written, h1], hs⟩
      · by_cases h2 : e.eventType = .streamEnd
        · simp only [step, h2] at hstep
          cases hw : s.hasWritten with
          | false =>
            rw [hw] at hstep
            simp only [Bool.false_eq_true, if_false, Prod.mk.injEq, Except.ok.injEq] at hstep
            obtain ⟨-, -, rfl⟩ := hstep
            exact ⟨by simp [RawWriter.openTypes, h2], by simp [written, h2, hw], fun _ => hs hw⟩
          | true =>
            rw [hw] at hstep
            simp only [if_true] at hstep
            cases hf : finishSymbols imports s.sym with
            | error err => rw [hf] at hstep; cases hstep
            | ok sc =>
              rw [hf] at hstep
              simp only at hstep
              cases hh : RawWriter.handle s.value ION_STREAM_END_EVENT with
              | error err => rw [hh] at hstep; cases hstep
              | ok q =>
                obtain ⟨c, w', v⟩ := q
                rw [hh] at hstep
                simp only [Prod.mk.injEq, Except.ok.injEq] at hstep
                obtain ⟨-, -, rfl⟩ := hstep
                have : s.value.frames = [] := by
                  by_contra hne
                  obtain ⟨err, he⟩ := RawWriter.handle_bad s.value ION_STREAM_END_EVENT
                    (.streamEndInside rfl (by simpa using hne))
                  rw [he] at hh; cases hh
                exact ⟨by simp [RawWriter.openTypes, h2, this, init], by simp [written, h2, init], fun _ => rfl⟩
        · rw [step_value imports s e h1 h2] at hstep
          simp only [Prod.mk.injEq] at hstep
          obtain ⟨k1, k2⟩ := writeValue_frames hstep.2
          refine ⟨k1, ?_, fun hc => by rw [k2] at hc; cases hc⟩
          rw [k2]
          cases he : e.eventType <;> simp_all [written]
    simp only [runEvents] at h
    cases hstep : step imports s e with
    | mk cs r =>
      rw [hstep] at h
      cases r with
      | error err => simp at h
      | ok q =>
        obtain ⟨w, s1⟩ := q
        simp only at h
        obtain ⟨k1, k2, k3⟩ := hone s1 cs w hstep
        obtain ⟨j1, j2, j3⟩ := ih s1 _ (Prod.ext rfl (Prod.mk.inj h).2) k3
        refine ⟨?_, ?_, j3⟩
        · rw [j1, k1, ← RawWriter.openTypes_append]; rfl
        · rw [j2, k2]
          cases he : e.eventType <;> simp [written, he]

/-- **C29** (binary writer) After every accepted history, an ill-formed event - an unmatched `CONTAINER_END`, `STREAM_END`
inside a container, a version marker after values, `INCOMPLETE`, a container event of a scalar type, a missing field name
inside a struct, a symbol with neither text nor ID, a scalar without type, whose value raises, or whose Python type does
not match its Ion type - raises an exception; nothing but (for the first value of a segment) the version marker is
output before, or, for `STREAM_END`, the symbol table. -/
theorem C29_binary_writer_rejects (imports : Option (List SymbolTable)) (evs : List IonEvent) (out : List Bytes) (s : State)
    (hrun : runEvents (step imports) init evs = (out, .ok s)) (e : IonEvent)
    (hbad : Bad (RawWriter.openTypes [] evs) (written false evs) e) :
    ∃ err extra, runEvents (step imports) init (evs ++ [e]) = (out ++ extra, .error err) ∧
      (e.eventType ≠ .streamEnd → extra = [] ∨ extra = [IVM]) := by
  obtain ⟨hfr, hwr, hwf⟩ := run_history imports evs init s out hrun (fun _ => rfl)
  have hinit : init.value.frames.map (fun f => some f.ty) = ([] : List (Option IonType)) := rfl
  rw [hinit] at hfr
  have hinit2 : init.hasWritten = false := rfl
  rw [hinit2] at hwr
  rw [← hfr, ← hwr] at hbad
  have key : ∀ cs err, step imports s e = (cs, .error err) → runEvents (step imports) init (evs ++ [e]) = (out ++ cs, .error err) := by
    intro cs err h
    rw [RawWriter.runEvents_append, hrun]
    simp [runEvents, h]
  by_cases h1 : e.eventType = .versionMarker
  · have : s.hasWritten = true := by
      cases hbad <;> simp_all
    refine ⟨_, _, key [] .ionException ?_, fun _ => .inl rfl⟩
    simp [step, h1, this]
  by_cases h2 : e.eventType = .streamEnd
  · have hne : s.value.frames ≠ [] := by
      intro hc
      cases hbad <;> simp_all
    have hw : s.hasWritten = true := by
      cases hw : s.hasWritten with
      | true => rfl
      | false => exact absurd (hwf hw) hne
    obtain ⟨err, he⟩ := RawWriter.handle_bad s.value ION_STREAM_END_EVENT (.streamEndInside rfl (by simpa using hne))
    have : ∃ cs err, step imports s e = (cs, .error err) := by
      simp only [step, h2, hw, if_true]
      cases finishSymbols imports s.sym with
      | error err => exact ⟨_, _, rfl⟩
      | ok sc => simp only [he]; exact ⟨_, _, rfl⟩
    obtain ⟨cs, err', hst⟩ := this
    exact ⟨err', cs, key cs err' hst, fun hc => absurd h2 hc⟩
  have hval : ∃ err, writeValue imports s e = .error err := by
    unfold writeValue
    simp only [bind, Except.bind, pure, Except.pure]
    split
    · exact ⟨_, rfl⟩
    · split
      · exact ⟨_, rfl⟩
      · rename_i sym _ p hp
        obtain ⟨sym', e'⟩ := p
        obtain ⟨k1, k2, k3, k4, k5, k6⟩ := internSymbols_keeps hp
        have hb' : RawWriter.Bad (s.value.frames.map fun f => some f.ty) e' := by
          cases hbad with
          | unmatchedEnd a b => exact .unmatchedEnd (by rw [k1]; exact a) b
          | streamEndInside a b => exact absurd a h2
          | lateMarker a b => exact absurd a h1
          | incomplete a => exact .notForRaw (.inr (by rw [k1]; exact a))
          | notContainer a b => exact .notContainer (by rw [k1]; exact a) (by rw [k2]; exact b)
          | noFieldName a b c =>
            refine .noFieldName (by rw [k1]; exact a) b ?_
            rw [k4 c]
            rcases c with c | c <;> rw [c] <;> rfl
          | unknownSymbol k a b c d => exact absurd ⟨c, d⟩ (k6 k b)
          | untyped a b => exact .untyped (by rw [k1]; exact a) (by rw [k2]; exact b)
          | raising err a b =>
            by_cases hty : e.ionType = some .symbol
            · obtain ⟨v, hv, -⟩ := k5 hty
              rw [b] at hv; cases hv
            · exact .raising err (by rw [k1]; exact a) (by rw [k3 hty]; exact b)
          | notSymbol v a b c d =>
            obtain ⟨v', hv', hw'⟩ := k5 b
            rw [c] at hv'
            simp only [Except.ok.injEq] at hv'
            obtain ⟨x, hx⟩ := hw' v hv'.symm
            rw [d] at hx; cases hx
          | mismatch ty v a b c d f g =>
            exact .mismatch ty v (by rw [k1]; exact a) (by rw [k2]; exact b)
              (by rw [k3 (by rw [b]; simpa using c)]; exact d) f g
        obtain ⟨err, he⟩ := RawWriter.handle_bad s.value e' hb'
        exact ⟨err, by simp [he]⟩
  obtain ⟨err, he⟩ := hval
  refine ⟨err, _, key (if !s.hasWritten && s.ivmNeeded then [IVM] else []) err ?_, fun _ => ?_⟩
  · rw [step_value imports s e h1 h2, he]
  · split
    · exact .inr rfl
    · exact .inl rfl

/-- The binary writer meets the hypothesis of C28. -/
theorem C28_binary_writer_settles (imports : Option (List SymbolTable)) : Trampoline.Settles (step imports) := by
  intro s e t s' h
  by_cases h1 : e.eventType = .versionMarker
  · simp only [step, h1] at h
    split at h
    · cases h
    · simp only [Except.ok.injEq, Prod.mk.injEq] at h
      rw [← h.1]; simp
  by_cases h2 : e.eventType = .streamEnd
  · simp only [step, h2] at h
    repeat' split at h
    all_goals first
      | cases h; done
      | (simp only [Except.ok.injEq, Prod.mk.injEq] at h; rw [← h.1]; simp)
  rw [step_value imports s e h1 h2] at h
  simp only at h
  unfold writeValue at h
  simp only [bind, Except.bind, pure, Except.pure] at h
  split at h
  · cases h
  · split at h
    · cases h
    · split at h
      · cases h
      · rename_i p _ _ q hq
        obtain ⟨cs, w, v⟩ := q
        simp only [Except.ok.injEq, Prod.mk.injEq] at h
        rw [← h.1]
        exact RawWriter.C28_raw_writer_settles s.value p.2 w v (by simp [RawWriter.step, hq])

/-! ## Examples -/

/-- `abc::{name: 'abc', x: $4}` and a string. -/
def sampleEvents : List IonEvent :=
  [ { eventType := .containerStart, ionType := some .struct, annotations := [.text [97, 98, 99]] },
    { eventType := .scalar, ionType := some .symbol, value := .ok (some (.str [97, 98, 99])), fieldName := some (.text [110, 97, 109, 101]) },
    { eventType := .scalar, ionType := some .symbol, value := .ok (some (.sym ⟨none, some 4, none⟩)), fieldName := some (.tok ⟨some [120], none, none⟩) },
    containerEnd,
    { eventType := .scalar, ionType := some .string, value := .ok (some (.str [97, 98])) } ]

/-- Non-vacuity of C14: the sample document meets the hypotheses, without imports. -/
example : ∃ T0, SymbolTable.new .local [] (imports := none) = .ok T0 ∧ Balanced sampleEvents ∧
    ∀ e ∈ sampleEvents, SymbolsOK T0.symbols.length e ∧ RegularEvent e ∧ EncodableEvent e := by
  obtain ⟨T0, h0, -, -, -, -, -, hc⟩ := new_local_spec [] none false
  have hlen : 9 ≤ T0.symbols.length := by
    have := congrArg List.length hc
    simp only [contents, List.length_map, List.length_append] at this
    have h9 : SYSTEM_SYMBOL_TOKENS.length = 9 := by rfl
    omega
  refine ⟨T0, h0, ?_, ?_⟩
  · unfold Balanced
    have : (valuesOf (σ := Unit) (fun _ => some ()) (fun _ => some ()) (sampleEvents.map asToken)).isSome = true := by rfl
    intro hc; rw [hc] at this; cases this
  · intro e he
    simp only [sampleEvents, List.mem_cons, List.not_mem_nil, or_false] at he
    rcases he with rfl | rfl | rfl | rfl | rfl <;>
      refine ⟨⟨?_, ?_, ?_⟩, ?_, ?_⟩ <;>
      simp [GoodSym, EncodableText, containerEnd, RegularEvent, EncodableEvent, RegularVal, EncodableVal, symbolOfValue]
    omega

/-- The bytes of a document: the symbol `x`, with its symbol table. -/
example : ((runEvents (step none) init [{ eventType := .scalar, ionType := some .symbol, value := .ok (some (.str [120])) },
      ION_STREAM_END_EVENT]).1.flatten) =
    [0xE0, 0x01, 0x00, 0xEA, 0xE8, 0x81, 0x83, 0xDE, 0x84, 0x87, 0xB2, 0x81, 0x78, 0x71, 0x0A] := by decide +kernel

/-- Non-vacuity of C29: a version marker after values. -/
example : Bad (RawWriter.openTypes [] sampleEvents) (written false sampleEvents) ION_VERSION_MARKER_EVENT :=
  .lateMarker rfl rfl

/-! ## Imports of other tables -/

theorem writeImports_error {ts : List SymbolTable} (h : ∃ t ∈ ts, t.tableType ≠ .shared) (s : RawWriter.State) :
    ∃ err, writeImports s ts = .error err := by
  induction ts generalizing s with
  | nil => obtain ⟨t, h, _⟩ := h; cases h
  | cons t ts ih =>
    unfold writeImports
    by_cases ht : t.tableType ≠ .shared
    · rw [if_pos ht]; exact ⟨_, rfl⟩
    · rw [if_neg ht]
      have : ∃ t ∈ ts, t.tableType ≠ .shared := by
        obtain ⟨u, hu, hs⟩ := h
        rcases List.mem_cons.1 hu with rfl | hu
        · exact absurd hs ht
        · exact ⟨u, hu, hs⟩
      cases hw : writeAll s (importEvents t) with
      | error err => exact ⟨err, rfl⟩
      | ok s' =>
        obtain ⟨err, h⟩ := ih this s'
        exact ⟨err, by simp [bind, Except.bind, h]⟩

/-- **C14** (imports).  Only shared symbol tables can be imported: if the imports of a writer contain the system table or a
local table, the first value raises, after any number of version markers, and nothing but a version marker is written. -/
theorem C14_only_shared_imports (imports : List SymbolTable) (h : ∃ t ∈ imports, t.tableType ≠ .shared) (markers : Nat)
    (e : IonEvent) (he : e.eventType ≠ .versionMarker) (he' : e.eventType ≠ .streamEnd) (more : List IonEvent) :
    ∃ cs err, runEvents (step (some imports)) init (List.replicate markers ION_VERSION_MARKER_EVENT ++ e :: more) = (cs, .error err) ∧
      cs.flatten = IVM := by
  have key : ∀ b, ∃ err, step (some imports) ({ init with ivmNeeded := b } : State) e = (if b then [IVM] else [], .error err) := by
    intro b
    have hv : ∃ err, writeValue (some imports) ({ init with ivmNeeded := b } : State) e = .error err := by
      have hl : ∃ err, startLst (some imports) ({ init with ivmNeeded := b } : State).sym = .error err := by
        obtain ⟨u, hu, hs⟩ := h
        cases imports with
        | nil => cases hu
        | cons t ts =>
          unfold startLst
          cases h1 : write ({ init with ivmNeeded := b } : State).sym.raw lstStructStart with
          | error err => exact ⟨err, rfl⟩
          | ok raw =>
            cases h2 : write raw importsListStart with
            | error err => exact ⟨err, by simp [bind, Except.bind, h2]⟩
            | ok raw =>
              obtain ⟨err, h3⟩ := writeImports_error ⟨u, hu, hs⟩ raw
              exact ⟨err, by simp [bind, Except.bind, h2, h3]⟩
      obtain ⟨err, hl⟩ := hl
      refine ⟨err, ?_⟩
      unfold writeValue
      rw [if_neg (by simp [init]), hl]
      rfl
    obtain ⟨err, hv⟩ := hv
    refine ⟨err, ?_⟩
    unfold step
    generalize hty : e.eventType = ty at he he'
    cases ty <;> simp only [hv] <;> first | exact absurd rfl he | exact absurd rfl he' | simp [init]
  cases markers with
  | zero =>
    obtain ⟨err, h1⟩ := key true
    refine ⟨[IVM], err, ?_, by simp⟩
    simp only [List.replicate_zero, List.nil_append, runEvents]
    rw [show init = ({ init with ivmNeeded := true } : State) from rfl, h1]
    rfl
  | succ n =>
    obtain ⟨err, h1⟩ := key false
    refine ⟨[IVM], err, ?_, by simp⟩
    rw [List.replicate_succ, List.cons_append, runEvents]
    rw [show init = ({ init with ivmNeeded := true } : State) from rfl, step_marker]
    simp only [if_true]
    rw [RawWriter.runEvents_append, run_markers]
    simp [runEvents, h1]

/-- Non-vacuity: the system table as import. -/
example : ∃ t, SymbolTable.new .local [] (imports := none) = .ok t ∧ t.tableType ≠ .shared := by
  obtain ⟨T0, h0, -, hl, -⟩ := new_local_spec [] none false
  exact ⟨T0, h0, by rw [hl]; simp⟩

end Ion.ManagedWriter
