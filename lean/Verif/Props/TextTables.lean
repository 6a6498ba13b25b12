import Verif.Props.TextLoading
set_option linter.unusedSimpArgs false
/-!
# C48: symbol tables in text documents, and whole documents
-/
namespace Ion.Simple
open Ion Ion.Spec Ion.Simple.Spec Ion.ManagedWriter
open Ion.ManagedReader (Event Context Handler Place ImportDesc thunkEvent react handle onTable onSymbols onImports onDesc endDesc setDesc stringValue intValue toDesc Means Noted Foreign)
open Ion.TextSpec (TSym symbolText scalarValue eventsOf eventsOfAll docEvents importField importOf importsOf declaredOf tableField tableFields tableOf Denotes)

theorem filter_ask {ctx ctx' : Context} {h h' : Option Handler} {e : IonEvent} {es : List IonEvent} (hr : react ctx h e = .ok (.ask .next ctx' h')) :
    filterEvents ctx h (e :: es) = filterEvents ctx' h' es := by
  simp only [filterEvents, hr]

/-- An event for the handler. -/
theorem react_handle {ctx : Context} {hd hd' : Handler} {e : IonEvent} (hs : e.eventType.isStreamSignal = false) (h : handle ctx hd e = .ok (.ask .next hd')) :
    react ctx (some hd) e = .ok (.ask .next ctx (some hd')) := by
  simp only [react, hs, Bool.false_eq_true, if_false, h]

/-- The event that opens a container. -/
def textStart (d : Nat) (f : Option TSym) (a : List TSym) (ty : CType) : IonEvent :=
  { eventType := .containerStart, ionType := some ty.ty, fieldName := f.map fun s => .tok s.token, annotations := a.map fun s => .tok s.token, depth := some d }

/-- The event that closes a container. -/
def textEnd (d : Nat) (ty : CType) : IonEvent := { eventType := .containerEnd, ionType := some ty.ty, depth := some d }

theorem events_scalar (d : Nat) (f : Option TSym) (a : List TSym) (x : Scalar TSym) : eventsOf d (.scalar f a x) = [textScalar d f a x] := by
  rw [eventsOf]; rfl

theorem events_cont (d : Nat) (f : Option TSym) (a : List TSym) (ty : CType) (items : List (Spec.Node TSym)) :
    eventsOf d (.cont f a ty items) = textStart d f a ty :: (eventsOfAll (d + 1) items ++ [textEnd d ty]) := by
  rw [eventsOf]; rfl

/-! ## The fields of an element of `imports` -/

theorem scalar_ty {t : Table} {x : Scalar TSym} {y : Scalar (Option Text)} (h : x.map (symbolText t) = y.map .ok) : x.ty = y.ty := by
  cases x <;> cases y <;> simp [Scalar.map] at h <;> simp [Scalar.ty, h]

theorem set_desc {t : Table} {i : Import} {name : Option Text} {d : Nat} {f : Option TSym} {a : List TSym} {x : Scalar TSym} {y : Scalar (Option Text)}
    (h : x.map (symbolText t) = y.map .ok) : setDesc (toDesc i) name (textScalar d f a x) = .ok (toDesc (importField i name y)) := by
  simp only [setDesc, importField, textScalar, Option.some.injEq]
  by_cases h1 : name = some TEXT_NAME
  · simp only [h1, true_and, if_true]
    cases x <;> cases y <;> simp [Scalar.map] at h <;> simp [Scalar.ty, scalarValue, stringValue, toDesc, TEXT_NAME, TEXT_VERSION, TEXT_MAX_ID]
    · subst h
      rename_i ty
      cases ty <;> simp [TEXT_NAME, TEXT_VERSION, TEXT_MAX_ID]
    · exact h
  · by_cases h2 : name = some TEXT_VERSION
    · simp only [h2, true_and, if_true]
      cases x <;> cases y <;> simp [Scalar.map] at h <;> simp [Scalar.ty, scalarValue, intValue, toDesc, TEXT_NAME, TEXT_VERSION, TEXT_MAX_ID]
      · subst h
        rename_i ty
        cases ty <;> simp [TEXT_NAME, TEXT_VERSION, TEXT_MAX_ID]
      · exact h
    · by_cases h3 : name = some TEXT_MAX_ID
      · simp only [h3, true_and, if_true]
        cases x <;> cases y <;> simp [Scalar.map] at h <;> simp [Scalar.ty, scalarValue, intValue, toDesc, TEXT_NAME, TEXT_VERSION, TEXT_MAX_ID]
        · subst h
          rename_i ty
          cases ty <;> simp [TEXT_NAME, TEXT_VERSION, TEXT_MAX_ID]
        · exact h
      · simp [h1, h2, h3]

theorem filter_desc {ctx : Context} {t : Table} (hm : Means ctx t) (d : Nat) (syms : List (Option Text)) (imps : Option (List SymbolTable)) (rest : List IonEvent) :
    ∀ {fields : List (Spec.Node TSym)} {vals : List Val} {i i' : Import}, fields.map (Node.map (symbolText t)) = vals.map (Node.map .ok) → importOf i vals = some i' →
    filterEvents ctx (some ⟨.desc (toDesc i), false, syms, imps⟩) (eventsOfAll d fields ++ rest) = filterEvents ctx (some ⟨.desc (toDesc i'), false, syms, imps⟩) rest := by
  intro fields
  induction fields with
  | nil =>
    intro vals i i' h hi
    cases vals with
    | cons => simp at h
    | nil =>
      simp only [importOf, Option.some.injEq] at hi
      subst hi
      rfl
  | cons n fields ih =>
    intro vals i i' h hi
    cases vals with
    | nil => simp at h
    | cons v vals =>
      simp only [List.map_cons, List.cons.injEq] at h
      cases v with
      | cont => simp [importOf] at hi
      | scalar f' a' y =>
        cases f' with
        | none => simp [importOf] at hi
        | some name =>
          cases n with
          | cont => simp [Node.map] at h
          | scalar f a x =>
            simp only [Node.map, Node.scalar.injEq] at h
            obtain ⟨⟨hf, ha, hx⟩, hrest⟩ := h
            cases f with
            | none => simp at hf
            | some f =>
              simp only [Option.map_some, Option.some.injEq] at hf
              obtain ⟨k, hk, hkt, -⟩ := findSym_of_text hf
              simp only [importOf] at hi
              rw [eventsOfAll, events_scalar, List.append_assoc, List.singleton_append]
              rw [filter_ask (ctx' := ctx) (h' := some ⟨.desc (toDesc (importField i name y)), false, syms, imps⟩), ih hrest hi]
              refine react_handle rfl ?_
              simp only [handle, Bool.false_eq_true, if_false, onDesc, textScalar, Option.map_some, reduceCtorEq, resolve_sym hm, hk, hkt]
              have := set_desc (i := i) (name := name) (d := d) (f := some f) (a := a) hx
              simp only [textScalar, Option.map_some] at this
              rw [this]

theorem filter_imports {ctx : Context} {t : Table} (hm : Means ctx t) (hc : Catalog.Registered ctx.catalog) (d : Nat) (syms : List (Option Text)) :
    ∀ {items : List (Spec.Node TSym)} {vals : List Val} {tbl : Table}, items.map (Node.map (symbolText t)) = vals.map (Node.map .ok) → importsOf ctx.catalog vals = some tbl →
    ∃ tabs, (∀ s ∈ tabs, Foreign s) ∧ tabs.flatMap SymbolTable.contents = tbl ∧ ∀ before rest,
      filterEvents ctx (some ⟨.imports, false, syms, some before⟩) (eventsOfAll d items ++ rest) =
        filterEvents ctx (some ⟨.imports, false, syms, some (before ++ tabs)⟩) rest := by
  intro items
  induction items with
  | nil =>
    intro vals tbl h hi
    cases vals with
    | cons => simp at h
    | nil =>
      simp only [importsOf, Option.some.injEq] at hi
      subst hi
      exact ⟨[], by simp, rfl, fun before rest => by simp [eventsOfAll]⟩
  | cons n items ih =>
    intro vals tbl h hi
    cases vals with
    | nil => simp at h
    | cons v vals =>
      simp only [List.map_cons, List.cons.injEq] at h
      obtain ⟨hn, hrest⟩ := h
      cases v with
      | scalar f' a' y =>
        cases n with
        | cont => simp [Node.map] at hn
        | scalar f a x =>
          simp only [importsOf] at hi
          obtain ⟨tabs, h1, h2, h3⟩ := ih hrest hi
          refine ⟨tabs, h1, h2, fun before rest => ?_⟩
          rw [eventsOfAll, events_scalar, List.append_assoc, List.singleton_append, filter_ask (react_handle rfl rfl), h3]
      | cont f' a' ty' fields' =>
        cases n with
        | scalar => simp [Node.map] at hn
        | cont f a ty fields =>
          simp only [Node.map, Node.cont.injEq, mapAll_eq] at hn
          obtain ⟨-, -, rfl, hfields⟩ := hn
          cases ty with
          | list => simp [importsOf] at hi
          | sexp => simp [importsOf] at hi
          | struct =>
            simp only [importsOf] at hi
            generalize hio : importOf {} fields' = io at hi
            cases io with
            | none => cases hi
            | some i =>
              simp only at hi
              generalize hfirst : i.table ctx.catalog = first at hi
              generalize hmore : importsOf ctx.catalog vals = more at hi
              cases first with
              | error err => cases hi
              | ok first =>
                cases more with
                | none => cases hi
                | some more =>
                  simp only [Option.some.injEq] at hi
                  subst hi
                  obtain ⟨tabs, h1, h2, h3⟩ := ih hrest hmore
                  have hstart : ∀ before rest, filterEvents ctx (some ⟨.imports, false, syms, some before⟩) (eventsOfAll d (.cont f a .struct fields :: items) ++ rest) =
                      filterEvents ctx (some ⟨.desc (toDesc i), false, syms, some before⟩) (textEnd d .struct :: (eventsOfAll d items ++ rest)) := by
                    intro before rest
                    rw [eventsOfAll, events_cont]
                    simp only [List.cons_append, List.append_assoc]
                    rw [filter_ask (ctx' := ctx) (h' := some ⟨.desc (toDesc {}), false, syms, some before⟩) (react_handle rfl rfl), filter_desc hm _ _ _ _ hfields hio]
                    rfl
                  unfold Import.table at hfirst
                  cases hname : i.name with
                  | none =>
                    rw [hname] at hfirst
                    simp only [Except.ok.injEq] at hfirst
                    subst hfirst
                    refine ⟨tabs, h1, by simpa using h2, fun before rest => ?_⟩
                    rw [hstart, filter_ask (ctx' := ctx) (h' := some ⟨.imports, false, syms, some before⟩), h3]
                    refine react_handle rfl ?_
                    simp only [handle, Bool.false_eq_true, if_false, onDesc, textEnd, if_true, endDesc, toDesc, hname]
                  | some name =>
                    rw [hname] at hfirst
                    simp only [bind, Except.bind, pure, Except.pure] at hfirst
                    generalize hres : ctx.catalog.resolve name i.version i.maxId = res at hfirst
                    cases res with
                    | error err => cases hfirst
                    | ok s =>
                      simp only [Except.ok.injEq] at hfirst
                      refine ⟨s :: tabs, ?_, ?_, fun before rest => ?_⟩
                      · intro s' hs'
                        rcases List.mem_cons.1 hs' with rfl | hs'
                        · exact (Catalog.resolve_located hc hres).1
                        · exact h1 s' hs'
                      · rw [List.flatMap_cons, h2, ← hfirst]; rfl
                      · rw [hstart, filter_ask (ctx' := ctx) (h' := some ⟨.imports, false, syms, some (before ++ [s])⟩), h3]
                        · simp
                        · refine react_handle rfl ?_
                          simp only [handle, Bool.false_eq_true, if_false, onDesc, textEnd, if_true, endDesc, toDesc, hname, hres, Option.getD_some]

theorem filter_symbols {ctx : Context} {t : Table} (d : Nat) (imps : Option (List SymbolTable)) (rest : List IonEvent) :
    ∀ {items : List (Spec.Node TSym)} {vals : List Val} {l : List (Option Text)}, items.map (Node.map (symbolText t)) = vals.map (Node.map .ok) → declaredOf vals = some l →
    ∀ syms, filterEvents ctx (some ⟨.symbols, false, syms, imps⟩) (eventsOfAll d items ++ rest) = filterEvents ctx (some ⟨.symbols, false, syms ++ l, imps⟩) rest := by
  intro items
  induction items with
  | nil =>
    intro vals l h hl syms
    cases vals with
    | cons => simp at h
    | nil =>
      simp only [declaredOf, Option.some.injEq] at hl
      subst hl
      simp [eventsOfAll]
  | cons n items ih =>
    intro vals l h hl syms
    cases vals with
    | nil => simp at h
    | cons v vals =>
      simp only [List.map_cons, List.cons.injEq] at h
      obtain ⟨hn, hrest⟩ := h
      cases v with
      | cont => simp [declaredOf] at hl
      | scalar f' a' y =>
        cases n with
        | cont => simp [Node.map] at hn
        | scalar f a x =>
          simp only [Node.map, Node.scalar.injEq] at hn
          have key : ∀ (s : Option Text) l', declaredOf vals = some l' → l = s :: l' → x.ty = .string → stringValue (.ok (scalarValue x)) = .ok s →
              filterEvents ctx (some ⟨.symbols, false, syms, imps⟩) (eventsOfAll d (.scalar f a x :: items) ++ rest) = filterEvents ctx (some ⟨.symbols, false, syms ++ l, imps⟩) rest := by
            intro s l' hl' he hty hsv
            rw [eventsOfAll, events_scalar, List.append_assoc, List.singleton_append, filter_ask (ctx' := ctx) (h' := some ⟨.symbols, false, syms ++ [s], imps⟩), ih hrest hl', he]
            · simp
            · refine react_handle rfl ?_
              simp only [handle, Bool.false_eq_true, if_false, onSymbols, textScalar, reduceCtorEq, hty, if_true, hsv]
          cases y with
          | string s =>
            simp only [declaredOf, Option.map_eq_some_iff] at hl
            obtain ⟨l', hl', he⟩ := hl
            have hx := hn.2.2
            cases x <;> simp [Scalar.map] at hx
            subst hx
            exact key (some _) l' hl' he.symm rfl rfl
          | null ty =>
            have hx := hn.2.2
            cases ty <;> simp only [declaredOf, Option.map_eq_some_iff, reduceCtorEq] at hl
            obtain ⟨l', hl', he⟩ := hl
            cases x <;> simp [Scalar.map] at hx
            subst hx
            exact key none l' hl' he.symm rfl rfl
          | _ => simp [declaredOf] at hl

theorem filter_fields {ctx : Context} {t : Table} (hm : Means ctx t) (hc : Catalog.Registered ctx.catalog) (d : Nat) :
    ∀ {fields : List (Spec.Node TSym)} {vals : List Val} {dr dr' : Draft} {imps : Option (List SymbolTable)}, fields.map (Node.map (symbolText t)) = vals.map (Node.map .ok) →
      tableFields ctx.catalog t dr vals = some dr' → Noted ctx t imps dr.base →
    ∃ imps', Noted ctx t imps' dr'.base ∧ ∀ rest, filterEvents ctx (some ⟨.table, false, dr.symbols, imps⟩) (eventsOfAll d fields ++ rest) =
      filterEvents ctx (some ⟨.table, false, dr'.symbols, imps'⟩) rest := by
  intro fields
  induction fields with
  | nil =>
    intro vals dr dr' imps h hd hn
    cases vals with
    | cons => simp at h
    | nil =>
      simp only [tableFields, Option.some.injEq] at hd
      subst hd
      exact ⟨imps, hn, fun _ => rfl⟩
  | cons n fields ih =>
    intro vals dr dr' imps h hd hn
    cases vals with
    | nil => simp at h
    | cons v vals =>
      simp only [List.map_cons, List.cons.injEq] at h
      obtain ⟨hv, hrest⟩ := h
      simp only [tableFields] at hd
      generalize htf : tableField ctx.catalog t dr v = r at hd
      cases r with
      | none => cases hd
      | some dr1 =>
        simp only at hd
        suffices ∃ imps1, Noted ctx t imps1 dr1.base ∧ ∀ rest, filterEvents ctx (some ⟨.table, false, dr.symbols, imps⟩) (eventsOf d n ++ rest) =
            filterEvents ctx (some ⟨.table, false, dr1.symbols, imps1⟩) rest by
          obtain ⟨imps1, h1, h2⟩ := this
          obtain ⟨imps', h3, h4⟩ := ih hrest hd h1
          refine ⟨imps', h3, fun rest => ?_⟩
          rw [eventsOfAll, List.append_assoc, h2, h4]
        cases n with
        | cont f a ty items =>
          cases v with
          | scalar => simp [Node.map] at hv
          | cont f' a' ty' items' =>
            simp only [Node.map, Node.cont.injEq, mapAll_eq] at hv
            obtain ⟨hf, -, rfl, hitems⟩ := hv
            cases ty with
            | sexp => simp [tableField] at htf
            | struct => simp [tableField] at htf
            | list =>
              obtain ⟨k, hk1, hk2⟩ := field_of_sym hm hf
              simp only [tableField] at htf
              rw [events_cont]
              simp only [List.cons_append, List.append_assoc, List.nil_append]
              by_cases h1 : f' = some (some TEXT_SYMBOLS)
              · rw [if_pos h1, Option.map_eq_some_iff] at htf
                obtain ⟨l, hl, rfl⟩ := htf
                have hk3 : k.bind (·.text) = some TEXT_SYMBOLS := by cases k <;> simp_all
                refine ⟨imps, hn, fun rest => ?_⟩
                rw [filter_ask (ctx' := ctx) (h' := some ⟨.symbols, false, dr.symbols, imps⟩), filter_symbols _ _ _ hitems hl]
                · rw [filter_ask (react_handle rfl rfl)]
                · refine react_handle rfl ?_
                  simp [handle, onTable, textStart, hk1, hk3, CType.ty]
              · rw [if_neg h1] at htf
                by_cases h2 : f' = some (some TEXT_IMPORTS)
                · rw [if_pos h2, Option.map_eq_some_iff] at htf
                  obtain ⟨l, hl, rfl⟩ := htf
                  have hk3 : k.bind (·.text) = some TEXT_IMPORTS := by cases k <;> simp_all
                  obtain ⟨tabs, i1, i2, i3⟩ := filter_imports hm hc (d + 1) dr.symbols hitems hl
                  refine ⟨some tabs, ?_, fun rest => ?_⟩
                  · rw [← i2]; exact .list tabs i1
                  · rw [filter_ask (ctx' := ctx) (h' := some ⟨.imports, false, dr.symbols, some []⟩), i3]
                    · rw [filter_ask (react_handle rfl rfl)]; rfl
                    · refine react_handle rfl ?_
                      have hne : ¬ TEXT_IMPORTS = TEXT_SYMBOLS := by decide
                      simp [handle, onTable, textStart, hk1, hk3, CType.ty, hne]
                · rw [if_neg h2] at htf; cases htf
        | scalar f a x =>
          cases v with
          | cont => simp [Node.map] at hv
          | scalar f' a' y =>
            simp only [Node.map, Node.scalar.injEq] at hv
            obtain ⟨hf, -, hx⟩ := hv
            obtain ⟨k, hk1, hk2⟩ := field_of_sym hm hf
            have hty := scalar_ty hx
            simp only [events_scalar, List.singleton_append]
            simp only [tableField] at htf
            by_cases h1 : f' = some (some TEXT_IMPORTS)
            · have hk3 : k.bind (·.text) = some TEXT_IMPORTS := by cases k <;> simp_all
              rw [if_pos h1] at htf
              by_cases h2 : y.ty = .symbol
              · cases y with
                | null ty =>
                  simp only [Scalar.ty] at h2
                  subst h2
                  cases htf
                | symbol s =>
                  cases x <;> simp [Scalar.map] at hx
                  rename_i s0
                  obtain ⟨k2, hk4, hk5, -⟩ := findSym_of_text hx
                  simp only at htf
                  have hrv : ctx.resolveValue (.sym s0.token) = .ok k2 := by
                    show ctx.resolve (.tok s0.token) = _
                    rw [resolve_sym hm, hk4]
                  have hev : ∀ r, ManagedReader.inheritTable ctx ⟨.table, false, dr.symbols, imps⟩ (textScalar d f a (.symbol s0)) = .ok r →
                      handle ctx ⟨.table, false, dr.symbols, imps⟩ (textScalar d f a (.symbol s0)) = .ok r := by
                    intro r hr
                    simp only [handle, Bool.false_eq_true, if_false, onTable]
                    simp only [textScalar, reduceCtorEq, if_false, hk1, hk3, Scalar.ty, and_self, if_true]
                    exact hr
                  by_cases h3 : s = some TEXT_ION_SYMBOL_TABLE
                  · rw [if_pos h3] at htf
                    by_cases h4 : (t.drop 9).all (fun m => m.2.map (·.name) ≠ some TEXT_ION) = true
                    · rw [if_pos h4] at htf
                      simp only [Option.some.injEq] at htf
                      subst htf
                      rcases hm.kind with ⟨hk6, hk7⟩ | ⟨hk6, -⟩
                      · refine ⟨none, by rw [hk7]; exact .none, fun rest => ?_⟩
                        rw [filter_ask (react_handle rfl (hev _ ?_))]
                        simp only [ManagedReader.inheritTable, textScalar, scalarValue, hrv, hk5, h3, if_true, hk6, TableType.isSystem]
                      · refine ⟨some [ctx.table], .inherit hk6 (by simpa using h4), fun rest => ?_⟩
                        rw [filter_ask (react_handle rfl (hev _ ?_))]
                        simp only [ManagedReader.inheritTable, textScalar, scalarValue, hrv, hk5, h3, if_true, hk6, TableType.isSystem, Bool.false_eq_true, if_false]
                    · rw [if_neg h4] at htf; cases htf
                  · rw [if_neg h3] at htf
                    simp only [Option.some.injEq] at htf
                    subst htf
                    refine ⟨imps, hn, fun rest => ?_⟩
                    rw [filter_ask (react_handle rfl (hev _ ?_))]
                    simp only [ManagedReader.inheritTable, textScalar, scalarValue, hrv, hk5, h3, if_false]
                | _ => simp [Scalar.ty] at h2
              · have : dr1 = dr := by
                  cases y <;> simp [Scalar.ty] at h2 <;> simp at htf <;> first | exact htf.symm | skip
                  rename_i ty
                  cases ty <;> simp at h2 <;> simp at htf <;> exact htf.symm
                subst this
                refine ⟨imps, hn, fun rest => ?_⟩
                rw [filter_ask (react_handle rfl ?_)]
                rw [← hty] at h2
                simp [handle, onTable, textScalar, hk1, h2]
            · rw [if_neg h1] at htf
              simp only [Option.some.injEq] at htf
              subst htf
              refine ⟨imps, hn, fun rest => ?_⟩
              have hk3 : k.bind (·.text) ≠ some TEXT_IMPORTS := by
                intro hc
                apply h1
                rw [← hk2]
                cases k with
                | none => cases hc
                | some k => simp only [Option.bind_some] at hc; simp [hc]
              rw [filter_ask (react_handle rfl ?_)]
              simp [handle, onTable, textScalar, hk1, hk3]

/-- A local symbol table. -/
theorem filter_table {ctx : Context} {t t' : Table} (hm : Means ctx t) (hc : Catalog.Registered ctx.catalog) {n : Spec.Node TSym} {f : Option (Option Text)} {a : List (Option Text)}
    {fields : List Val} (hn : n.map (symbolText t) = Spec.Node.map .ok (.cont f (some TEXT_ION_SYMBOL_TABLE :: a) .struct fields)) (ht : tableOf ctx.catalog t fields = some t') :
    ∃ ctx', Means ctx' t' ∧ ctx'.catalog = ctx.catalog ∧ ∀ rest, filterEvents ctx none (eventsOf 0 n ++ rest) = filterEvents ctx' none rest := by
  cases n with
  | scalar => simp [Node.map] at hn
  | cont g b ty items =>
    simp only [Node.map, Node.cont.injEq, mapAll_eq] at hn
    obtain ⟨-, hb, rfl, hitems⟩ := hn
    cases b with
    | nil => simp at hb
    | cons b bs =>
      simp only [List.map_cons, List.cons.injEq] at hb
      obtain ⟨k, hk, hkt, -⟩ := findSym_of_text hb.1
      unfold tableOf at ht
      rw [Option.map_eq_some_iff] at ht
      obtain ⟨d, hd, rfl⟩ := ht
      obtain ⟨imps', hnoted, hrun⟩ := filter_fields hm hc 1 hitems hd .none
      obtain ⟨T, hT, hmeans⟩ := ManagedReader.new_table hm hnoted d.symbols
      refine ⟨⟨ctx.catalog, T⟩, hmeans, rfl, ?_⟩
      intro rest
      rw [events_cont]
      simp only [List.cons_append, List.append_assoc, List.nil_append]
      have h1 : react ctx none (textStart 0 g (b :: bs) .struct) = .ok (.ask .next ctx (some {})) := by
        simp [react, ManagedReader.onUser, textStart, ManagedReader.isTextMarker, ManagedReader.startsTable, CType.ty, Context.hasTableAnnotation, resolve_sym hm, hk, hkt]
      have h2 : react ctx (some ⟨.table, false, d.symbols, imps'⟩) (textEnd 0 .struct) = .ok (.ask .next ⟨ctx.catalog, T⟩ none) := by
        simp [react, textEnd, IonEventType.isStreamSignal, handle, onTable, hT]
      rw [filter_ask h1, hrun, filter_ask h2]

/-! ## Values of the user -/

theorem filter_give {ctx : Context} {e : IonEvent} {es : List IonEvent} (hr : react ctx none e = .ok (.give ctx none)) :
    filterEvents ctx none (e :: es) = (filterEvents ctx none es).map fun p => (thunkEvent ctx e :: p.1, p.2) := by
  simp only [filterEvents, hr]
  cases filterEvents ctx none es <;> rfl

theorem filter_gives {ctx : Context} : ∀ {es : List IonEvent}, (∀ e ∈ es, react ctx none e = .ok (.give ctx none)) →
    ∀ rest, filterEvents ctx none (es ++ rest) = (filterEvents ctx none rest).map fun p => (es.map (thunkEvent ctx) ++ p.1, p.2) := by
  intro es
  induction es with
  | nil => intro _ rest; simp
  | cons e es ih =>
    intro h rest
    rw [List.cons_append, filter_give (h e (by simp)), ih (fun x hx => h x (by simp [hx]))]
    cases filterEvents ctx none rest <;> rfl

theorem event_depth (n : Spec.Node TSym) : ∀ d, ∀ e ∈ eventsOf d n, ∃ k : Nat, e.depth = some (k : Int) ∧ d ≤ k := by
  refine Spec.Node.rec (motive_1 := fun n => ∀ d, ∀ e ∈ eventsOf d n, ∃ k : Nat, e.depth = some (k : Int) ∧ d ≤ k)
    (motive_2 := fun ns => ∀ d, ∀ e ∈ eventsOfAll d ns, ∃ k : Nat, e.depth = some (k : Int) ∧ d ≤ k) ?_ ?_ ?_ ?_ n
  · intro f a x d e he
    rw [events_scalar] at he
    simp only [List.mem_singleton] at he
    subst he
    exact ⟨d, rfl, Nat.le_refl _⟩
  · intro f a ty items ih d e he
    rw [events_cont] at he
    simp only [List.mem_cons, List.mem_append, List.not_mem_nil, or_false] at he
    rcases he with rfl | he | rfl
    · exact ⟨d, rfl, Nat.le_refl _⟩
    · obtain ⟨k, h1, h2⟩ := ih (d + 1) e he
      exact ⟨k, h1, by omega⟩
    · exact ⟨d, rfl, Nat.le_refl _⟩
  · intro d e he; simp [eventsOfAll] at he
  · intro n ns ih1 ih2 d e he
    simp only [eventsOfAll, List.mem_append] at he
    exact he.elim (ih1 d e) (ih2 d e)

theorem events_depth {items : List (Spec.Node TSym)} {d : Nat} {e : IonEvent} (h : e ∈ eventsOfAll d items) : ∃ k : Nat, e.depth = some (k : Int) ∧ d ≤ k := by
  induction items with
  | nil => simp [eventsOfAll] at h
  | cons n items ih =>
    simp only [eventsOfAll, List.mem_append] at h
    exact h.elim (event_depth n d e) ih

/-- A value of the user is handed on. -/
theorem filter_user {ctx : Context} {t : Table} (hm : Means ctx t) {n : Spec.Node TSym} {v : Val} (hn : n.map (symbolText t) = v.map .ok) (hs : ¬ SystemLike v) :
    ∀ rest, filterEvents ctx none (eventsOf 0 n ++ rest) = (filterEvents ctx none rest).map fun p => ((eventsOf 0 n).map (thunkEvent ctx) ++ p.1, p.2) := by
  apply filter_gives
  intro e he
  cases n with
  | scalar f a x =>
    cases v with
    | cont => simp [Node.map] at hn
    | scalar f' a' y =>
      simp only [Node.map, Node.scalar.injEq] at hn
      obtain ⟨-, ha, hx⟩ := hn
      rw [events_scalar] at he
      simp only [List.mem_singleton] at he
      subst he
      have hmark : ManagedReader.isTextMarker ctx (textScalar 0 f a x) = .ok false := by
        by_cases h1 : x.ty = .symbol ∧ a = []
        · obtain ⟨h1, rfl⟩ := h1
          cases a' with
          | cons => simp at ha
          | nil =>
            cases x <;> simp only [Scalar.ty, reduceCtorEq] at h1
            · subst h1; simp [ManagedReader.isTextMarker, textScalar, Scalar.ty, scalarValue]
            · rename_i s0
              cases y <;> simp [Scalar.map] at hx
              rename_i s
              obtain ⟨k, hk, hkt, -⟩ := findSym_of_text hx
              have hrv : ctx.resolveValue (.sym s0.token) = .ok k := by
                show ctx.resolve (.tok s0.token) = _
                rw [resolve_sym hm, hk]
              have hne : s ≠ some TEXT_ION_1_0 := by
                rintro rfl
                exact hs rfl
              simp [ManagedReader.isTextMarker, textScalar, Scalar.ty, scalarValue, hrv, hkt, hne]
        · have : ¬ ((textScalar 0 f a x).ionType = some .symbol ∧ (textScalar 0 f a x).annotations = []) := by
            simpa [textScalar] using h1
          simp only [ManagedReader.isTextMarker, this, if_false]
      have hstart : ManagedReader.startsTable ctx (textScalar 0 f a x) = .ok false := by simp [ManagedReader.startsTable, textScalar]
      have hd : (textScalar 0 f a x).depth = some 0 := rfl
      have ht : (textScalar 0 f a x).eventType = .scalar := rfl
      simp only [react, ManagedReader.onUser, hd, if_true, ht, reduceCtorEq, if_false, hmark, hstart]
  | cont f a ty items =>
    cases v with
    | scalar => simp [Node.map] at hn
    | cont f' a' ty' items' =>
      simp only [Node.map, Node.cont.injEq] at hn
      obtain ⟨-, ha, rfl, -⟩ := hn
      rw [events_cont] at he
      simp only [List.mem_cons, List.mem_append, List.not_mem_nil, or_false] at he
      rcases he with rfl | he | rfl
      · have hmark : ManagedReader.isTextMarker ctx (textStart 0 f a ty) = .ok false := by cases ty <;> simp [ManagedReader.isTextMarker, textStart, CType.ty]
        have hstart : ManagedReader.startsTable ctx (textStart 0 f a ty) = .ok false := by
          cases ty with
          | list => rfl
          | sexp => rfl
          | struct =>
            simp only [ManagedReader.startsTable, textStart, CType.ty, and_self, if_true]
            cases a with
            | nil => rfl
            | cons b bs =>
              cases a' with
              | nil => simp at ha
              | cons b' bs' =>
                simp only [List.map_cons, List.cons.injEq] at ha
                obtain ⟨k, hk, hkt, -⟩ := findSym_of_text ha.1
                have hne : b' ≠ some TEXT_ION_SYMBOL_TABLE := by
                  rintro rfl
                  exact hs rfl
                simp [Context.hasTableAnnotation, resolve_sym hm, hk, hkt, hne]
        have hd : (textStart 0 f a ty).depth = some 0 := rfl
        have ht : (textStart 0 f a ty).eventType = .containerStart := rfl
        simp only [react, ManagedReader.onUser, hd, if_true, ht, reduceCtorEq, if_false, hmark, hstart]
      · obtain ⟨k, h1, h2⟩ := events_depth he
        have : e.depth ≠ some 0 := by rw [h1]; simp; omega
        simp only [react, ManagedReader.onUser, this, if_false]
      · cases ty <;> simp [react, ManagedReader.onUser, textEnd, ManagedReader.isTextMarker, ManagedReader.startsTable, CType.ty]

/-! ## Documents -/

theorem load_denotes {catalog : Catalog} (hc : Catalog.Registered catalog) {t : Table}
    {items : List (Option (Spec.Node TSym))} {values : List Val} (h : Denotes catalog t items values) (hsh : ∀ n, some n ∈ items → Shaped false [n]) :
    ∀ {ctx : Context}, Means ctx t → ctx.catalog = catalog → ∃ ps out ctx', List.Forall₂ (Loaded false) ps values ∧
      filterEvents ctx none (docEvents items) = some (out, ctx', none) ∧
      ∀ {R : Type} (step : R → RawReader.Cmd → Option (Except PyErr Event × R)) (o : Out) src src2, o.isDict = false → Delivers step src out src2 → loadLoop step .streamEnd o src = loadLoop step .streamEnd (ps.foldl Out.push o) src2 := by
  induction h with
  | nil t =>
    intro ctx _ _
    refine ⟨[], [], ctx, .nil, rfl, ?_⟩
    intro R step o src src2 _ hd
    cases hd
    rfl
  | marker t items values _ ih =>
    intro ctx _ hcat
    obtain ⟨ps, out, ctx', h1, h2, h3⟩ := ih (fun n hn => hsh n (by simp [hn])) (ctx := { catalog := catalog }) (ManagedReader.means_system catalog) rfl
    refine ⟨ps, out, ctx', h1, ?_, h3⟩
    have hr : react ctx none ION_VERSION_MARKER_EVENT = .ok (.ask .next { catalog := catalog } none) := by rw [← hcat]; rfl
    have : docEvents (none :: items) = ION_VERSION_MARKER_EVENT :: docEvents items := rfl
    rw [this, filter_ask hr, h2]
  | value t n v items values hn hs _ ih =>
    intro ctx hm hcat
    obtain ⟨ps, out, ctx', h1, h2, h3⟩ := ih (fun n hn => hsh n (by simp [hn])) hm hcat
    obtain ⟨qs, j1, j2⟩ := load_text_values hm (hsh n (by simp)) (texts := [v]) (by simp [hn])
    refine ⟨qs ++ ps, (eventsOf 0 n).map (thunkEvent ctx) ++ out, ctx', ?_, ?_, ?_⟩
    · cases j1 with
      | cons k1 k2 => cases k2; exact .cons k1 h1
    · have : docEvents (some n :: items) = eventsOf 0 n ++ docEvents items := rfl
      rw [this, filter_user hm hn hs, h2]
      rfl
    · intro R step o src src2 ho hd
      obtain ⟨src1, d1, d2⟩ := hd.split
      rw [j2 step 0 .streamEnd o src src1 (.inr rfl) ho (by simpa [eventsOfAll] using d1), List.foldl_append]
      refine h3 step _ src1 src2 ?_ d2
      clear j2 j1
      induction qs generalizing o with
      | nil => exact ho
      | cons q qs ihq => exact ihq _ (by rw [push_isDict, ho])
  | nop t n f items values hn _ ih =>
    intro ctx hm hcat
    obtain ⟨ps, out, ctx', h1, h2, h3⟩ := ih (fun n hn => hsh n (by simp [hn])) hm hcat
    refine ⟨ps, out, ctx', h1, ?_, h3⟩
    cases n with
    | cont => simp [Node.map] at hn
    | scalar g a x =>
      simp only [Node.map, Node.scalar.injEq, List.map_nil, List.map_eq_nil_iff] at hn
      obtain ⟨-, rfl, hx⟩ := hn
      cases x <;> simp [Scalar.map] at hx
      rename_i s0
      obtain ⟨k, hk, hkt, -⟩ := findSym_of_text hx
      have hrv : ctx.resolveValue (.sym s0.token) = .ok k := by
        show ctx.resolve (.tok s0.token) = _
        rw [resolve_sym hm, hk]
      have : docEvents (some (.scalar g [] (.symbol s0)) :: items) = textScalar 0 g [] (.symbol s0) :: docEvents items := by
        simp only [docEvents, List.flatMap_cons, events_scalar, List.singleton_append]
      rw [this, filter_ask (ctx' := ctx) (h' := none), h2]
      simp [react, ManagedReader.onUser, textScalar, ManagedReader.isTextMarker, Scalar.ty, scalarValue, hrv, hkt]
  | table t t' n f a fields items values hn ht _ ih =>
    intro ctx hm hcat
    subst hcat
    obtain ⟨ctx1, k1, k2, k3⟩ := filter_table hm hc hn ht
    obtain ⟨ps, out, ctx', h1, h2, h3⟩ := ih (fun n hn => hsh n (by simp [hn])) k1 k2
    refine ⟨ps, out, ctx', h1, ?_, h3⟩
    have : docEvents (some n :: items) = eventsOf 0 n ++ docEvents items := rfl
    rw [this, k3, h2]

/-! ## The grammar -/

open Ion.TextSpec (IsTimeText IsFractionText IsScalarText IsName IsAnns IsDoc IsBlank decNum)

theorem time_normal {t : Timestamp} {bs : List Nat} (h : IsTimeText t bs) : (∃ p, IsTimeValue t p) ∧ Scalars.FracOk t.frac := by
  have hco : ∀ {p}, IsTimeValue t p → p ≠ .second → Scalars.FracOk t.frac := by
    intro p hp hs
    rw [hp.coarse hs]
    exact TextReader.fracOk_zero
  cases h with
  | year hp _ => exact ⟨⟨_, hp⟩, hco hp (by decide)⟩
  | month hp _ => exact ⟨⟨_, hp⟩, hco hp (by decide)⟩
  | day _ hp _ _ => exact ⟨⟨_, hp⟩, hco hp (by decide)⟩
  | minute _ hp _ => exact ⟨⟨_, hp⟩, hco hp (by decide)⟩
  | second frac off hp hf _ =>
    refine ⟨⟨_, hp⟩, ?_⟩
    generalize t.frac = fr at hf
    cases hf with
    | none => exact TextReader.fracOk_zero
    | digits fs hne hfs hlt hlen =>
      refine ⟨hlt, by simp only; omega, ?_⟩
      simp

theorem scalar_times {F : FloatText} {bs : List Nat} {x : Scalar TSym} (h : IsScalarText F bs x) : ∀ t, x = .timestamp t → (∃ p, IsTimeValue t p) ∧ Scalars.FracOk t.frac := by
  intro t ht
  subst ht
  cases h with
  | timestamp _ _ h => exact time_normal h

theorem name_isSome {p : TextSpec.Place} {bs : List Nat} {f : Option TSym} (h : IsName p bs f) : f.isSome = decide (p = some .struct) := by
  cases h with
  | none _ hp => simp [hp]
  | some => simp

theorem shaped_cons {s : Bool} {n : Spec.Node TSym} {ns : List (Spec.Node TSym)} (h1 : Shaped s [n]) (h2 : Shaped s ns) : Shaped s (n :: ns) := by
  cases h1 with
  | scalar _ f a x _ k1 k2 _ => exact .scalar _ _ _ _ _ k1 k2 h2
  | cont _ f a ty items _ k1 k2 _ => exact .cont _ _ _ _ _ _ k1 k2 h2

theorem value_shaped {F : FloatText} {p : TextSpec.Place} {bs : List Nat} {n : Spec.Node TSym} (h : TextSpec.IsValue F p bs n) : Shaped (decide (p = some .struct)) [n] := by
  refine TextSpec.IsValue.rec (motive_1 := fun p _ n _ => Shaped (decide (p = some .struct)) [n]) (motive_2 := fun ty _ items _ => Shaped (decide (ty = .struct)) items) ?_ ?_ ?_ ?_ ?_ h
  · intro p name anns bs f as v hn _ hv _
    exact .scalar _ _ _ _ _ (name_isSome hn) (scalar_times hv) (.nil _)
  · intro p name anns w body f as ty items hn _ _ _ _ ih
    exact .cont _ _ _ _ _ _ (name_isSome hn) ih (.nil _)
  · intro anns t as _ _
    exact .scalar _ _ _ _ _ (by simp) (by simp) (.nil _)
  · intro ty; exact .nil _
  · intro ty v sep rest n items _ _ _ ih1 ih2
    simp only [Option.some.injEq] at ih1
    exact shaped_cons ih1 ih2

theorem doc_shaped {F : FloatText} {bs : List Nat} {items : List (Option (Spec.Node TSym))} (h : IsDoc F bs items) : ∀ n, some n ∈ items → Shaped false [n] := by
  induction h with
  | nil => intro n hn; cases hn
  | marker g rest items _ _ _ ih =>
    intro n hn
    simp only [List.mem_cons, reduceCtorEq, false_or] at hn
    exact ih n hn
  | value v g rest n items hv _ _ ih =>
    intro m hm
    simp only [List.mem_cons, Option.some.injEq] at hm
    rcases hm with rfl | hm
    · simpa using value_shaped hv
    · exact ih m hm

end Ion.Simple
