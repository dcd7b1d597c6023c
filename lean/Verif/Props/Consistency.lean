import Verif.Spec.Consistency
import Verif.Props.Diagnostics
import Verif.Props.Rename
import Verif.Props.History
import Verif.Props.OneLine
import Verif.Proofs.RenameMeaning

/-! C61, C62, C64: the features of the server agree with each other. -/

namespace HyperIR
open Spec

section
variable [Unicode] {st : ServerState} {uri text : Str} {res : ParserResult}

/-- What is found at a position depends on the symbol only. -/
theorem useDef_targets {doc : AnalyzedDocument} {errs} (ha : analyze text = .ok (doc, errs)) (h : parseFromStr text = .ok res)
    (hsize : text.length < 2 ^ 32) (hst : st.docs.get? uri = some doc)
    {p q : Pos} {i j : Nat} (hi : LspOffset text p i) (hj : LspOffset text q j) {o o' : SymbolOccurrence}
    (ho : Occurs res.tokens res.stmts o) (ho' : Occurs res.tokens res.stmts o') (hc : Covers o.span i) (hc' : Covers o'.span j)
    (hp : PlainTo text o.span.stop) (hp' : PlainTo text o'.span.stop)
    (hsame : SameSymbol o o') (hvis : ¬ Shadowed res.stmts o) (env : Env) (ud : UseDefKind) :
    (getUseDefRanges env st uri p ud).map' (Option.map Prod.snd) = (getUseDefRanges env st uri q ud).map' (Option.map Prod.snd) := by
  obtain ⟨h1, h2, h3⟩ := hsame
  obtain ⟨r, _, hr⟩ := getUseDefRanges_spec ha h hsize hst hi ho hc hp hvis env ud
  obtain ⟨r', _, hr'⟩ := getUseDefRanges_spec ha h hsize hst hj ho' hc' hp' (shadowed_same ⟨h1.symm, h2.symm, h3.symm⟩ hvis) env ud
  rw [hr, hr', ← h1, ← h2, ← h3]
  generalize (if ud = .def_ then _ else _ : Outcome (List Location)) = x
  cases x <;> rfl

omit [Unicode] in
theorem targets_map (x : Outcome (Option (Range × List Location))) :
    targets (match x with | .panic => .panic | .ok r => .ok (r.map toLinks)) = x.map' (Option.map Prod.snd) := by
  cases x with
  | panic => rfl
  | ok r =>
    cases r with
    | none => rfl
    | some r =>
      simp only [Option.map_some, targets, toLinks, List.map_map, Outcome.map', Outcome.ok.injEq, Option.some.injEq]
      exact List.map_id _

/-- C61: two positions inside occurrences of the same symbol get the same references, declarations, definitions, the same
effect of any rename, and the same code actions. -/
theorem C61_same_answers (hopen : Opened st uri text) (h : parseFromStr text = .ok res) (hsize : text.length < 2 ^ 32)
    {p q : Pos} {i j : Nat} (hi : LspOffset text p i) (hj : LspOffset text q j) {o o' : SymbolOccurrence}
    (ho : Occurs res.tokens res.stmts o) (ho' : Occurs res.tokens res.stmts o') (hc : Covers o.span i) (hc' : Covers o'.span j)
    (hp : PlainTo text o.span.stop) (hp' : PlainTo text o'.span.stop)
    (hsame : SameSymbol o o') (hvis : ¬ Shadowed res.stmts o) (env : Env) :
    references env st uri p = references env st uri q ∧
    targets (gotoDeclaration env st uri p) = targets (gotoDeclaration env st uri q) ∧
    targets (gotoDefinition env st uri p) = targets (gotoDefinition env st uri q) ∧
    (∀ name, rename env st uri p name = rename env st uri q name) ∧
    codeAction env st uri ⟨p, p⟩ = codeAction env st uri ⟨q, q⟩ := by
  obtain ⟨doc, errs, ha, hst⟩ := hopen
  have hu := useDef_targets ha h hsize hst hi hj ho ho' hc hc' hp hp' hsame hvis env
  obtain ⟨h1, h2, h3⟩ := hsame
  obtain ⟨x, hx, _, _, hx'⟩ := (symbolAt_occurs ha h hsize hi (hp.mono (Nat.le_of_lt hc.2))).2 o ho hc
  obtain ⟨y, hy, _, _, hy'⟩ := (symbolAt_occurs ha h hsize hj (hp'.mono (Nat.le_of_lt hc'.2))).2 o' ho' hc'
  obtain rfl := hx' hvis
  obtain rfl := hy' (shadowed_same ⟨h1.symm, h2.symm, h3.symm⟩ hvis)
  refine ⟨?_, ?_, ?_, ?_, ?_⟩
  · have := hu .use
    unfold references
    revert this
    cases getUseDefRanges env st uri p .use <;> cases getUseDefRanges env st uri q .use <;> simp [Outcome.map']
  · unfold gotoDeclaration
    exact (targets_map _).trans ((hu _).trans (targets_map _).symm)
  · unfold gotoDefinition
    exact (targets_map _).trans ((hu _).trans (targets_map _).symm)
  · intro name
    have : renameEdits env doc x name = renameEdits env doc y name := by
      unfold renameEdits relativeRename absoluteRename
      simp only [h1, h2, h3]
    unfold rename
    simp only [hst, hx, hy, this]
  · have : offeredActions uri doc p = offeredActions uri doc q := by
      unfold offeredActions
      simp only [hx, hy, h1, h2, h3]
    unfold codeAction
    simp only [hst, ne_eq, not_true_eq_false, if_false, this]

omit [Unicode] in
theorem docOccs_append (i : Nat) (a b : List Statement) : docOccs i (a ++ b) = docOccs i a ++ docOccs (i + funcCount a) b := by
  induction a generalizing i with
  | nil => simp [docOccs, funcCount]
  | cons s a ih =>
    simp only [List.cons_append, docOccs, ih, List.append_assoc]
    congr 3
    cases s <;> simp [funcCount] <;> omega

/-- The locations of a symbol in a role are empty if it has no occurrence in that role. -/
theorem localLocations_nil (h : parseFromStr text = .ok res) {ix} (hix : createIndex text res.tokens res.stmts = .ok ix)
    (hsize : text.length < 2 ^ 32) (uri : Str) (k : SymbolKind) (f : Option Nat) (n : Str) (ud : UseDefKind) :
    localLocations uri text (listed ix k f n ud) = [] ↔ ∀ sp, ¬ Occurs res.tokens res.stmts ⟨sp, ud, k, n, f⟩ := by
  constructor
  · intro e sp hs
    obtain ⟨r, hr⟩ := occurs_rangeToLsp h hsize hs
    have : (⟨uri, r⟩ : Location) ∈ localLocations uri text (listed ix k f n ud) :=
      List.mem_filterMap.mpr ⟨sp, (listed_occurs h hix).mpr hs, by simp only at hr; rw [hr]; rfl⟩
    rw [e] at this
    cases this
  · intro hno
    refine List.eq_nil_iff_forall_not_mem.mpr fun l hm => ?_
    obtain ⟨sp, hs, _⟩ := List.mem_filterMap.mp hm
    exact hno sp ((listed_occurs h hix).mp hs)

/-- Two occurrences that are shown at the same place are the same, if the text is plain up to one of them. -/
theorem shown_unique (h : parseFromStr text = .ok res) (hsize : text.length < 2 ^ 32) {o o' : SymbolOccurrence} {r : Range}
    (ho : Occurs res.tokens res.stmts o) (ho' : Occurs res.tokens res.stmts o') (hp : PlainTo text o.span.stop)
    (hr : EditorRange text o.span r) (hr' : rangeToLsp text o'.span = some r) : o'.span = o.span := by
  have hin := (C02_token_spans h).1 _ (occurs_token h ho)
  have hin' := (C02_token_spans h).1 _ (occurs_token h ho')
  rw [occTok_span] at hin hin'
  simp only [Inside] at hin hin'
  have hlen := length_le_utf8Len text
  by_cases hlt : o'.span.stop ≤ o.span.stop
  · have hp' : PlainTo text o'.span.stop := hp.mono hlt
    obtain ⟨q, hq⟩ := occurs_editor h ho'
    have := rangeToLsp_editor hsize (hp'.mono (by omega)) hp' hq
    rw [hr'] at this
    cases this
    exact editorRange_inj hsize hq hr
  · exfalso
    have hord : o.span.stop ≤ o'.span.start := by
      have hne : occTok o ≠ occTok o' := by
        intro e
        have := congrArg Prod.snd e
        rw [occTok_span, occTok_span] at this
        rw [this] at hlt
        exact hlt (Nat.le_refl _)
      have := wellOrdered_apart (tokens_wellOrdered h) (occurs_token h ho) (occurs_token h ho') hne
      rw [occTok_span, occTok_span] at this
      omega
    have hro := rangeToLsp_editor hsize (hp.mono (by omega)) hp hr
    obtain ⟨r0, h0, _, hm⟩ := C15_ranges hsize o.span (by omega) (by omega)
    rw [hro] at h0
    cases h0
    have hle := (hm o'.span r hr').2.2 hord
    have e1 := ((C14_positions_partial hsize).2 _ _ hr.1 (hp.mono (by omega))).1
    have e2 := ((C14_positions_partial hsize).2 _ _ hr.2 hp).1
    have hmono := lspOffset_mono hsize hr.1 hr.2 (by omega) (by omega)
    have : r.start = r.stop := by
      obtain ⟨⟨l1, c1⟩, l2, c2⟩ := r
      simp only [PosLe] at hle hmono
      simp only [Pos.mk.injEq]
      omega
    rw [this, e2] at e1
    simp only [Option.some.injEq] at e1
    omega

/-- C62: a use is reported as undefined exactly if neither a definition nor a declaration is found for it. -/
theorem C62_undefined_nowhere (hopen : Opened st uri text) (h : parseFromStr text = .ok res) (hsize : text.length < 2 ^ 32)
    {p : Pos} {off : Nat} (hpos : LspOffset text p off) {o : SymbolOccurrence} (ho : Occurs res.tokens res.stmts o) (hc : Covers o.span off)
    (hp : PlainTo text o.span.stop) (huse : o.useDef = .use) (env : Env)
    {env₀ : Env} {st₀ st₁ : ServerState} {v : Int} {pub : Publish} (hpub : onChange env₀ st₀ uri v text = .ok (st₁, pub)) :
    (∃ d ∈ pub.diagnostics, d.message = c!"Use of undefined symbol `" ++ o.name ++ c!"`" ∧ EditorRange text o.span d.range) ↔
      gotoDefinition env st uri p = .ok (some []) ∧ gotoDeclaration env st uri p = .ok (some []) := by
  obtain ⟨doc, errs, ha, hst⟩ := hopen
  obtain ⟨res', h1, _, _, _, _, h6⟩ := analyze_inv ha
  rw [h] at h1
  cases h1
  have hiff : (∃ d ∈ pub.diagnostics, d.message = c!"Use of undefined symbol `" ++ o.name ++ c!"`" ∧ EditorRange text o.span d.range) ↔
      UndefinedUse res.tokens res.stmts o := by
    obtain ⟨reports, others, hperm, _, _, hP, hsays⟩ := C38_undefined hsize h hpub
    constructor
    · rintro ⟨d, hd, hm, hr⟩
      obtain ⟨o', hu, h4⟩ := undef_reported hsize h hpub hd ⟨_, by rw [hm, List.append_assoc]⟩
      rw [occurs_visible h h6 ho hu.1 (shown_unique h hsize ho hu.1 hp hr h4).symm (use_visible ho huse) (use_visible hu.1 hu.2.1)]
      exact hu
    · intro hu
      obtain ⟨⟨o', d⟩, h1, rfl⟩ := List.mem_map.mp ((hP o).mpr hu)
      exact ⟨d, hperm.mem_iff.mpr (List.mem_append.mpr (.inl (List.mem_map.mpr ⟨_, h1, rfl⟩))), (hsays _ h1).1, (hsays _ h1).2 hp⟩
  rw [hiff]
  obtain ⟨r, _, hg⟩ := getUseDefRanges_spec ha h hsize hst hpos ho hc hp (use_visible ho huse) env .def_
  obtain ⟨r', _, hg'⟩ := getUseDefRanges_spec ha h hsize hst hpos ho hc hp (use_visible ho huse) env .decl
  have hd := localLocations_nil h h6 hsize uri o.symbolKind o.funcBodyId o.name .def_
  have hd' := localLocations_nil h h6 hsize uri o.symbolKind o.funcBodyId o.name .decl
  simp only [if_true] at hg
  simp only [reduceCtorEq, if_false, List.append_nil] at hg'
  constructor
  · rintro ⟨_, _, hall⟩
    have hno : ∀ ud, ud ≠ .use → ∀ sp, ¬ Occurs res.tokens res.stmts ⟨sp, ud, o.symbolKind, o.name, o.funcBodyId⟩ :=
      fun ud hne sp hs => hne (hall _ hs ⟨rfl, rfl, rfl⟩)
    have hext : ((entry? doc.index o.symbolKind o.funcBodyId o.name).getD {}).externalDefs = [] := by
      refine List.eq_nil_iff_forall_not_mem.mpr fun d hm => ?_
      obtain ⟨g, hinv, _⟩ := index_inv h h6
      by_cases hk : o.symbolKind = .function ∧ o.funcBodyId = none
      · rw [hk.1, hk.2, C22_external_defs h h6] at hm
        obtain ⟨before, name, def_, after, e, _, b, sig, addr, sp, a, e', hn, _⟩ := hm
        refine hno .decl (by simp) sig.name.2 (.inl ?_)
        rw [e, e', docOccs_append, docOccs_append, hk.1, hk.2, ← hn]
        simp [docOccs, stmtOccs, occ]
      · rw [hinv.ext, if_neg hk] at hm
        cases hm
    rw [hext, hd.mpr (hno _ (by simp))] at hg
    rw [hd'.mpr (hno _ (by simp))] at hg'
    unfold gotoDefinition gotoDeclaration
    rw [hg, hg']
    exact ⟨rfl, rfl⟩
  · rintro ⟨h1, h2⟩
    unfold gotoDefinition at h1
    unfold gotoDeclaration at h2
    rw [hg] at h1
    rw [hg'] at h2
    have e2 : localLocations uri text (listed doc.index o.symbolKind o.funcBodyId o.name .decl) = [] := by
      simpa [toLinks] using h2
    have e1 : localLocations uri text (listed doc.index o.symbolKind o.funcBodyId o.name .def_) = [] := by
      revert h1
      cases externalLocations env st.roots ((entry? doc.index o.symbolKind o.funcBodyId o.name).getD {}).externalDefs with
      | panic => simp
      | ok l =>
        simp only [Option.map_some, toLinks, Outcome.ok.injEq, Option.some.injEq, List.map_eq_nil_iff, List.append_eq_nil_iff]
        exact fun h => h.1
    refine ⟨ho, huse, ?_⟩
    rintro ⟨sp, ud, k, n, f⟩ hs ⟨h1, h2, h3⟩
    simp only at h1 h2 h3
    subst h1 h2 h3
    cases ud with
    | use => rfl
    | decl => exact absurd hs (hd'.mp e2 sp)
    | def_ => exact absurd hs (hd.mp e1 sp)

/-! ### C64: the order of hash maps -/

/-- Both crash, or both results are related. -/
def OutRel {α : Type} (R : α → α → Prop) : Outcome α → Outcome α → Prop
  | .ok a, .ok b => R a b
  | .panic, .panic => True
  | _, _ => False

omit [Unicode] in
theorem OutRel.trans {α : Type} {R : α → α → Prop} (hR : ∀ a b c, R a b → R b c → R a c) {x y z : Outcome α}
    (h : OutRel R x y) (h' : OutRel R y z) : OutRel R x z := by
  cases x <;> cases y <;> cases z <;> first | exact h.elim | exact h'.elim | trivial | exact hR _ _ _ h h'

omit [Unicode] in
theorem OutRel.refl {α : Type} {R : α → α → Prop} (hR : ∀ a, R a a) (x : Outcome α) : OutRel R x x := by
  cases x
  · exact hR _
  · trivial

omit [Unicode] in
theorem collectO_perm {α β : Type} (f : α → Outcome (List β)) {l l' : List α} (h : l.Perm l') :
    OutRel List.Perm (collectO f l) (collectO f l') := by
  induction h with
  | nil => exact List.Perm.refl _
  | @cons x a b _ ih =>
    unfold collectO
    cases f x with
    | panic => trivial
    | ok ys =>
      revert ih
      cases collectO f a <;> cases collectO f b <;> intro ih
      · exact List.Perm.append_left _ ih
      · exact ih.elim
      · exact ih.elim
      · trivial
  | swap x y l =>
    simp only [collectO]
    cases f x <;> cases f y <;> cases collectO f l <;> try trivial
    show List.Perm _ _
    rw [← List.append_assoc, ← List.append_assoc]
    exact List.perm_append_comm.append_right _
  | trans _ _ ih ih' => exact OutRel.trans (R := List.Perm) (fun _ _ _ => List.Perm.trans) ih ih'

omit [Unicode] in
theorem ord_perm (o o' : IterOrder) {α : Type} (l : List α) : (o.run l).Perm (o'.run l) := (o.perm l).trans (o'.perm l).symm

theorem getShiftEdits_order (o o' : IterOrder) (b : Build) (rope : Str) (ix : HIRIndex) (k : SymbolKind) (f : Option Nat) (n s : Int) :
    OutRel List.Perm (getShiftEdits o b rope ix k f n s) (getShiftEdits o' b rope ix k f n s) := by
  unfold getShiftEdits
  cases ix.funcBody f with
  | panic => trivial
  | ok fb =>
    dsimp only
    cases ix.getBySymbolKind k fb with
    | panic => trivial
    | ok m => exact collectO_perm _ (ord_perm o o' m)

/-- The same result or the same error. -/
def ExRel {α : Type} (R : α → α → Prop) : Except RpcError α → Except RpcError α → Prop
  | .ok a, .ok b => R a b
  | .error e, .error e' => e = e'
  | _, _ => False

variable {env env' : Env}

theorem rename_order (h : SameButOrder env env') (st : ServerState) (u : Str) (p : Pos) (n : Str) :
    OutRel (ExRel SameEdits) (rename env st u p n) (rename env' st u p n) := by
  have hedits : ∀ doc s, OutRel (ExRel List.Perm) (renameEdits env doc s n) (renameEdits env' doc s n) := by
    intro doc s
    have hrel : ∀ sign, OutRel (ExRel List.Perm) (relativeRename env doc s n sign) (relativeRename env' doc s n sign) := by
      intro sign
      unfold relativeRename
      rw [← h.1]
      cases parseI64 (n.drop 1) with
      | none => exact rfl
      | some nr =>
        dsimp only
        cases i64Op env.build (sign * nr) with
        | panic => trivial
        | ok shift =>
          dsimp only
          cases extractNumberFromIdentifier s.name with
          | panic => trivial
          | ok x =>
            cases x with
            | none => exact rfl
            | some x =>
              dsimp only
              have := getShiftEdits_order env.ord env'.ord env.build doc.rope doc.index s.symbolKind s.funcBodyId x.2 shift
              revert this
              cases getShiftEdits env.ord env.build doc.rope doc.index s.symbolKind s.funcBodyId x.2 shift <;>
                cases getShiftEdits env'.ord env.build doc.rope doc.index s.symbolKind s.funcBodyId x.2 shift <;>
                intro this <;> exact this
    unfold renameEdits
    split
    · exact hrel 1
    · exact hrel (-1)
    · refine OutRel.refl ?_ _
      intro a
      cases a
      · exact rfl
      · exact List.Perm.refl _
  unfold rename
  cases st.docs.get? u with
  | none => exact rfl
  | some doc =>
    dsimp only
    cases symbolAt doc p with
    | none => exact rfl
    | some s =>
      dsimp only
      have := hedits doc s
      revert this
      cases renameEdits env doc s n with
      | panic => cases renameEdits env' doc s n <;> intro h <;> first | exact h.elim | trivial
      | ok a =>
        cases renameEdits env' doc s n with
        | panic => intro h; exact h.elim
        | ok b => cases a <;> cases b <;> intro h <;> first | exact h | exact ⟨rfl, h, trivial⟩

omit [Unicode] in
theorem sameEdits_refl : ∀ x : WorkspaceEdit, SameEdits x x
  | [] => trivial
  | (_, _) :: x => ⟨rfl, .refl _, sameEdits_refl x⟩

omit [Unicode] in
theorem sameAction_refl (a : CodeAction) : SameAction a a := by
  refine ⟨rfl, rfl, ?_⟩
  cases a.edit with
  | none => trivial
  | some x => exact sameEdits_refl x

omit [Unicode] in
theorem sameActions_refl : ∀ x : List CodeAction, SameActions x x
  | [] => trivial
  | a :: x => ⟨sameAction_refl a, sameActions_refl x⟩

theorem resolve_order (h : SameButOrder env env') (st : ServerState) (a : CodeAction) :
    OutRel (ExRel SameAction) (codeActionResolve env st a) (codeActionResolve env' st a) := by
  unfold codeActionResolve
  rw [← h.1]
  cases hd : a.data with
  | missing => exact rfl
  | invalid => exact rfl
  | shift d =>
    dsimp only
    cases st.docs.get? d.uri with
    | none => exact rfl
    | some doc =>
      dsimp only
      have := getShiftEdits_order env.ord env'.ord env.build doc.rope doc.index d.symbolKind d.funcBodyId d.renamedNr 1
      revert this
      cases getShiftEdits env.ord env.build doc.rope doc.index d.symbolKind d.funcBodyId d.renamedNr 1 <;>
        cases getShiftEdits env'.ord env.build doc.rope doc.index d.symbolKind d.funcBodyId d.renamedNr 1 <;>
        intro this <;> first | exact this | exact ⟨rfl, rfl, rfl, this, trivial⟩

theorem resolveAll_order (h : SameButOrder env env') (st : ServerState) :
    ∀ as : List CodeAction, OutRel SameActions (resolveAll env st as) (resolveAll env' st as)
  | [] => trivial
  | a :: as => by
    have h1 := resolve_order h st a
    have h2 := resolveAll_order h st as
    unfold resolveAll
    revert h1
    cases codeActionResolve env st a with
    | panic =>
      cases codeActionResolve env' st a with
      | panic => intro _; trivial
      | ok y => intro h; exact h.elim
    | ok x =>
      cases codeActionResolve env' st a with
      | panic => intro h; exact h.elim
      | ok y =>
        cases x <;> cases y <;> intro h1
        · trivial
        · exact h1.elim
        · exact h1.elim
        · revert h2
          dsimp only
          cases resolveAll env st as <;> cases resolveAll env' st as <;> intro h2 <;>
            first | exact h2.elim | trivial | exact ⟨h1, h2⟩

theorem codeAction_order (h : SameButOrder env env') (st : ServerState) (u : Str) (r : Range) :
    OutRel (ExRel fun x y => SameReply (.actions x) (.actions y)) (codeAction env st u r) (codeAction env' st u r) := by
  unfold codeAction
  cases st.docs.get? u with
  | none => exact rfl
  | some doc =>
    dsimp only
    split
    · exact SameReply.same
    · cases offeredActions u doc r.start with
      | panic => trivial
      | ok as =>
        dsimp only
        split
        · exact SameReply.same
        · have := resolveAll_order h st as
          revert this
          cases resolveAll env st as <;> cases resolveAll env' st as <;> intro this <;>
            first | exact this.elim | trivial | exact SameReply.actions this

omit [Unicode] in
theorem externalLocations_order (h : SameButOrder env env') (roots : List Url) (ds : List ExternalDef) :
    externalLocations env roots ds = externalLocations env' roots ds := by
  induction ds with
  | nil => rfl
  | cons d ds ih => unfold externalLocations; rw [h.1, h.2.1, ih]

omit [Unicode] in
theorem getUseDefRanges_order (h : SameButOrder env env') (st : ServerState) (u : Str) (p : Pos) (ud : UseDefKind) :
    getUseDefRanges env st u p ud = getUseDefRanges env' st u p ud := by
  unfold getUseDefRanges
  simp only [externalLocations_order h]

theorem inlayHint_order (h : SameButOrder env env') (st : ServerState) (u : Str) : inlayHint env st u = inlayHint env' st u := by
  have : ∀ doc, backtraceHint env st.roots doc = backtraceHint env' st.roots doc := by
    intro doc
    funext i
    unfold backtraceHint
    rw [h.2.1, h.2.2]
  unfold inlayHint backtraceHints
  simp only [this]

theorem onChange_order (env env' : Env) (st : ServerState) (u : Str) (v : Int) (t : Str) :
    SameOutcome ((onChange env st u v t).map' fun r => (r.1, .published r.2)) ((onChange env' st u v t).map' fun r => (r.1, .published r.2)) := by
  unfold onChange
  cases analyze t with
  | panic => trivial
  | ok x => exact ⟨rfl, .published (documentDiagnostics_perm env env' u x.1 x.2)⟩

omit [Unicode] in
theorem sameOutcome_of_eq {x y : Outcome (ServerState × Reply)} (h : x = y) : SameOutcome x y := by
  subst h
  cases x with
  | panic => trivial
  | ok x => exact ⟨rfl, .same⟩

omit [Unicode] in
theorem sameOutcome_of_rel {α : Type} {R : α → α → Prop} {f : α → Reply} {x y : Outcome (Except RpcError α)} {st : ServerState}
    (h : OutRel (ExRel R) x y) (hf : ∀ a b, R a b → SameReply (f a) (f b)) :
    SameOutcome (x.map' fun r => (st, replyOf f r)) (y.map' fun r => (st, replyOf f r)) := by
  cases x with
  | panic => cases y <;> first | exact h.elim | trivial
  | ok a =>
    cases y with
    | panic => exact h.elim
    | ok b =>
      refine ⟨rfl, ?_⟩
      cases a <;> cases b
      · obtain rfl : _ = _ := h
        exact .same
      · exact h.elim
      · exact h.elim
      · exact hf _ _ h

/-- C64: what the server does with a message does not depend on the order in which hash maps are iterated, up to the order
of the parts of its answer. -/
theorem C64_order (h : SameButOrder env env') (st : ServerState) (m : Msg) : SameOutcome (step env st m) (step env' st m) := by
  cases m with
  | «initialize» p => exact sameOutcome_of_eq rfl
  | didOpen u v t => exact onChange_order env env' st u v t
  | didChange u v cs =>
    cases cs with
    | nil => trivial
    | cons c cs => exact onChange_order env env' st u v c.text
  | gotoDefinition u p => exact sameOutcome_of_eq (by simp only [step, gotoDefinition, getUseDefRanges_order h])
  | gotoDeclaration u p => exact sameOutcome_of_eq (by simp only [step, gotoDeclaration, getUseDefRanges_order h])
  | references u p => exact sameOutcome_of_eq (by simp only [step, references, getUseDefRanges_order h])
  | semanticTokensFull u => exact sameOutcome_of_eq (by simp only [step, semanticTokensFull, h.1])
  | documentSymbol u =>
    refine ⟨rfl, ?_⟩
    unfold documentSymbol
    cases st.docs.get? u with
    | none => exact .same
    | some doc => exact .symbols (((ord_perm env.ord env'.ord _).flatMap_right _).append_right _)
  | prepareRename u p => exact sameOutcome_of_eq rfl
  | rename u p n => exact sameOutcome_of_rel (rename_order h st u p n) fun _ _ => .edit
  | codeAction u r => exact sameOutcome_of_rel (codeAction_order h st u r) fun _ _ h => h
  | codeActionResolve a => exact sameOutcome_of_rel (resolve_order h st a) fun _ _ => .action
  | foldingRange u => exact sameOutcome_of_eq rfl
  | inlayHint u => exact sameOutcome_of_eq (by simp only [step, inlayHint_order h])
  | codeLens u =>
    refine ⟨rfl, ?_⟩
    unfold codeLens
    cases st.docs.get? u with
    | none => exact .same
    | some doc => exact .lenses ((ord_perm env.ord env'.ord _).filterMap _)
  | executeCommand c as => exact sameOutcome_of_eq rfl
  | shutdown => exact sameOutcome_of_eq rfl

/-- C64, for whole histories. -/
theorem C64_history : ∀ {ms ms' : List Step}, SameMessages ms ms' → ∀ st : ServerState, SameHistory (run st ms) (run st ms')
  | [], [], _, st => ⟨rfl, trivial⟩
  | [], _ :: _, h, _ => h.elim
  | _ :: _, [], h, _ => h.elim
  | (e, m) :: ms, (f, n) :: ms', h, st => by
    obtain ⟨h1, rfl, h2⟩ := h
    have h3 := C64_order h1 st m
    unfold run
    revert h3
    cases step e st m with
    | panic => cases step f st m <;> intro h3 <;> first | exact h3.elim | trivial
    | ok x =>
      cases step f st m with
      | panic => intro h; exact h.elim
      | ok y =>
        obtain ⟨s, r⟩ := x
        obtain ⟨s', r'⟩ := y
        rintro ⟨rfl, h3⟩
        have h4 := C64_history h2 s
        dsimp only
        revert h4
        cases run s ms <;> cases run s ms' <;> intro h4 <;> first | exact h4.elim | trivial | exact ⟨h4.1, h3, h4.2⟩

end

section Examples
attribute [local instance] asciiUnicode

/-- The occurrences of the label of `renText`. -/
def renDef : SymbolOccurrence := { span := ⟨35, 37⟩, useDef := .def_, symbolKind := .label, name := c!"x1", funcBodyId := some 0 }
def renUse : SymbolOccurrence := { span := ⟨74, 76⟩, useDef := .use, symbolKind := .label, name := c!"x1", funcBodyId := some 0 }

/-- Two occurrences as in C61. -/
theorem renPair_facts : ∃ res, parseFromStr renText = .ok res ∧ Occurs res.tokens res.stmts renDef ∧ Occurs res.tokens res.stmts renUse ∧
    SameSymbol renDef renUse ∧ ¬ Ambiguous res.stmts renDef.name := by
  generalize h : parseFromStr renText = r
  have hd : (match parseFromStr renText with
    | .ok res => decide (renDef ∈ docOccs 0 res.stmts) && decide (renUse ∈ docOccs 0 res.stmts) && decide (¬ IsFunction res.stmts c!"x1")
    | .panic => false) = true := by decide +kernel
  rw [h] at hd
  cases r with
  | panic => cases hd
  | ok res =>
    simp only [Bool.and_eq_true, decide_eq_true_eq] at hd
    exact ⟨res, rfl, .inl hd.1.1, .inl hd.1.2, ⟨rfl, rfl, rfl⟩, fun h => hd.2 h.1⟩

/-- From both the same reference is found and the same edits are made. -/
example : references debugEnv (serverWith [] c!"u" renText) c!"u" ⟨2, 1⟩ = .ok (some [⟨c!"u", ⟨⟨4, 4⟩, ⟨4, 6⟩⟩⟩]) ∧
    references debugEnv (serverWith [] c!"u" renText) c!"u" ⟨4, 4⟩ = .ok (some [⟨c!"u", ⟨⟨4, 4⟩, ⟨4, 6⟩⟩⟩]) := by decide +kernel
example : (match rename debugEnv (serverWith [] c!"u" renText) c!"u" ⟨4, 5⟩ c!"y" with | .ok (.ok e) => some e | _ => none) =
    some [(c!"u", [⟨⟨⟨2, 0⟩, ⟨2, 2⟩⟩, c!"y"⟩, ⟨⟨⟨4, 4⟩, ⟨4, 6⟩⟩, c!"y"⟩])] := by decide +kernel

/-- An undefined and a defined use as in C62. -/
def undefText : Str := c!"define void @f() {\n call @g\n call @f\n}\n"

example : (match onChange debugEnv {} c!"u" 1 undefText with
    | .ok (_, pub) => pub.diagnostics.map fun d => (d.range, d.message)
    | .panic => []) = [(⟨⟨1, 6⟩, ⟨1, 8⟩⟩, c!"Use of undefined symbol `@g`")] := by decide +kernel
example : gotoDefinition debugEnv (serverWith [] c!"u" undefText) c!"u" ⟨1, 6⟩ = .ok (some []) ∧
    gotoDeclaration debugEnv (serverWith [] c!"u" undefText) c!"u" ⟨1, 6⟩ = .ok (some []) ∧
    gotoDefinition debugEnv (serverWith [] c!"u" undefText) c!"u" ⟨2, 6⟩ ≠ .ok (some []) := by decide +kernel

/-- Two orders of iteration, and answers in different order. -/
def reverseEnv : Env := { debugEnv with ord := ⟨fun l => l.reverse, fun l => List.reverse_perm l⟩ }

example : SameButOrder debugEnv reverseEnv := ⟨rfl, rfl, rfl⟩
example : (documentSymbol debugEnv (serverWith [] c!"u" c!"@a = 1\n@b = 2\n") c!"u").map (fun l => l.map (·.name)) = some [c!"@a", c!"@b"] ∧
    (documentSymbol reverseEnv (serverWith [] c!"u" c!"@a = 1\n@b = 2\n") c!"u").map (fun l => l.map (·.name)) = some [c!"@b", c!"@a"] := by
  decide +kernel

end Examples
end HyperIR
