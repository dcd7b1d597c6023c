import Verif.Proofs.Reading
import Verif.Proofs.Equivariant

/- How a document is read does not depend on the names of its labels (src/hir_parser.rs:170-425): labels stand where no word is
expected that makes up an instruction. -/

namespace HyperIR
open Spec

/-- New names for the identifiers at some places. -/
def labelG (v : Spanned Str → Option Str) : Renaming where
  ren t := match t.1 with | .ident n => v (n, t.2) | _ => none
  f := id
  named := by
    rintro ⟨t, sp⟩ x h
    cases t <;> simp at h
    exact ⟨_, rfl⟩

section
variable {v w : Spanned Str → Option Str}

theorem lab_ident {n : Str} {sp : Span} : (labelG v).tok (.ident n, sp) = (.ident ((v (n, sp)).getD n), sp) := by
  unfold Renaming.tok renTok labelG
  simp only
  cases v (n, sp) <;> rfl

theorem lab_identTok {x : Spanned Str} : (labelG v).tok (identTok x) = identTok ((labelG v).name .ident x) := by
  unfold identTok
  rw [lab_ident]
  rfl

theorem lab_fixed {t : Tok} (h : ∀ n, t.1 ≠ .ident n) : (labelG v).tok t = t := by
  obtain ⟨t, sp⟩ := t
  cases t <;> first | rfl | exact absurd rfl (h _)

theorem lab_kept {n : Str} {sp : Span} (h : v (n, sp) = none) : (labelG v).tok (.ident n, sp) = (.ident n, sp) := by
  rw [lab_ident, h]; rfl

theorem lab_span {t : Tok} : ((labelG v).tok t).2 = t.2 := rfl

theorem lab_eq {t : Tok} {c : Token} (hc : ∀ n, c ≠ .ident n) : ((labelG v).tok t).1 = c ↔ t.1 = c := by
  obtain ⟨t, sp⟩ := t
  cases t <;> first
    | rfl
    | (rw [lab_ident]; exact ⟨fun h => absurd h.symm (hc _), fun h => absurd h.symm (hc _)⟩)

theorem lab_tok_eq {t : Tok} {c : Tok} (hc : ∀ n, c.1 ≠ .ident n) : (labelG v).tok t = c ↔ t = c := by
  constructor
  · intro h
    have h1 := (lab_eq (v := v) (t := t) hc).mp (congrArg Prod.fst h)
    have h2 : ((labelG v).tok t).2 = c.2 := congrArg Prod.snd h
    exact Prod.ext h1 h2
  · rintro rfl
    exact lab_fixed hc

theorem lab_is_ident {t : Tok} {n : Str} {sp : Span} (h : (labelG v).tok t = (.ident n, sp)) : ∃ m, t = (.ident m, sp) := by
  obtain ⟨t, sp'⟩ := t
  cases t <;> first
    | (rw [lab_ident] at h; cases h; exact ⟨_, rfl⟩)
    | (rw [lab_fixed (by simp)] at h; cases h)

theorem lab_dbgToks {d : Option (Spanned Str)} : (dbgToks d).map (labelG v).tok = dbgToks d := by
  cases d <;> rfl

theorem lab_newlines {l : List Tok} (h : Newlines l) : l.map (labelG v).tok = l := by
  refine (List.map_congr_left fun t ht => ?_).trans (List.map_id l)
  exact lab_fixed (by rw [h t ht]; simp)

theorem lab_oneLine {l : List Tok} (h : OneLine l) : OneLine (l.map (labelG v).tok) := by
  intro t ht
  obtain ⟨t, ht', rfl⟩ := List.mem_map.mp ht
  rw [ne_eq, lab_eq (by simp)]
  exact h t ht'

theorem lab_hull {l : List Tok} : hull (l.map (labelG v).tok) = hull l := by
  unfold hull
  rw [List.head?_map, List.getLast?_map]
  cases l.head? <;> cases l.getLast? <;> rfl

theorem lab_name {mk : Str → Token} (hmk : ∀ n m, mk n ≠ .ident m) (x : Spanned Str) : (labelG v).name mk x = x := by
  unfold Renaming.name labelG
  have := hmk x.1
  cases h : mk x.1 <;> simp_all <;> rfl

/-! ### Where labels stand -/

/-- The line ends soon, and not behind a comma. -/
def EndsSoon (b : List Tok) : Prop :=
  ∃ a nl y, b = a ++ (.newline, nl) :: y ∧ a.length ≤ 3 ∧ ∀ a' c, a ≠ a' ++ [(.punct ',', c)]

/-- What is known about the tokens around a label. -/
structure Around (a b : List Tok) : Prop where
  next : ∃ t b', b = t :: b' ∧ t.1 ≠ .punct '='
  comma : ∀ a' c, a = a' ++ [(.punct ',', c)] → EndsSoon b
  line : ∀ a' nl, a = a' ++ [(.newline, nl)] → ∃ c nl' b', b = (.punct ':', c) :: (.newline, nl') :: b'
  assign : ∀ a' x e, a ≠ a' ++ [localTok x, (.punct '=', e)]
  depends : ∀ a' g, a ≠ a' ++ [globalTok g]
  on : ∀ a' g x, a ≠ a' ++ [globalTok g, identTok x]

/-- Identifiers with new names stand where labels stand. -/
def Loose (v : Spanned Str → Option Str) (pre s : List Tok) : Prop :=
  ∀ a n sp b, s = a ++ (.ident n, sp) :: b → v (n, sp) ≠ none → Around (pre ++ a) b

theorem Loose.right {pre l r : List Tok} (h : Loose v pre (l ++ r)) : Loose v (pre ++ l) r := by
  intro a n sp b he hv
  have := h (l ++ a) n sp b (by simp [he]) hv
  simpa using this

theorem Loose.tail {pre r : List Tok} {t : Tok} (h : Loose v pre (t :: r)) : Loose v (pre ++ [t]) r :=
  Loose.right (l := [t]) h

theorem Loose.eq {pre a b : List Tok} {n : Str} {sp e : Span} (h : Loose v pre (a ++ (.ident n, sp) :: (.punct '=', e) :: b)) : v (n, sp) = none := by
  refine Classical.byContradiction fun hv => ?_
  obtain ⟨t, b', h1, h2⟩ := (h a n sp _ rfl hv).next
  cases h1
  exact h2 rfl

/-- Operands and what follows them do not end soon. -/
theorem endsSoon_not {kw : Str} {ops tail x : List Tok} (ho : Operands kw ops) (ht : OneLine tail) (h4 : 4 ≤ tail.length)
    (h : EndsSoon (ops ++ (tail ++ x))) : False := by
  obtain ⟨a, nl, y, h, ha, hc⟩ := h
  rcases List.append_eq_append_iff.mp h with ⟨c, rfl, h2⟩ | ⟨c, hops, h2⟩
  · refine newline_not_inside h2 ht ?_
    simp at ha
    omega
  · cases c with
    | nil =>
      simp only [List.nil_append] at h2
      cases tail with
      | nil => simp at h4
      | cons u tail =>
        injection h2 with h2 _
        exact ht u List.mem_cons_self (by rw [← h2])
    | cons u c =>
      injection h2 with h2 _
      subst h2
      obtain ⟨a', c', rfl⟩ := operands_newline ho hops
      exact hc a' c' rfl

theorem operands_lab {kw : Str} {ops tail x : List Tok} (ho : Operands kw ops) (ht : OneLine tail) (h4 : 4 ≤ tail.length) :
    ∀ {pre}, Loose v pre (ops ++ (tail ++ x)) → Operands kw (ops.map (labelG v).tok) := by
  induction ho with
  | nil => intro _ _; exact .nil
  | tok h1 h2 _ ih =>
    intro pre hl
    exact .tok (by rwa [ne_eq, lab_eq (by simp)]) (by rwa [ne_eq, lab_eq (by simp)]) (ih hl.tail)
  | @comma c t l h1 h2 ih =>
    intro pre hl
    have hl' : Loose v (pre ++ [(.punct ',', c)]) (t :: (l ++ (tail ++ x))) := Loose.tail hl
    rw [List.map_cons, List.map_cons, lab_fixed (t := (.punct ',', c)) (by simp)]
    refine .comma ?_ (ih hl'.tail)
    obtain ⟨t, sp⟩ := t
    cases t
    case ident n =>
      cases hv : v (n, sp) with
      | none => rw [lab_kept hv]; exact h1
      | some m =>
        exact absurd ((hl' [] n sp _ rfl (by rw [hv]; simp)).comma pre c (by simp)) (endsSoon_not h2 ht h4)
    all_goals exact h1

theorem commaSep_lab {G : Spanned Str → List Tok → Prop}
    (hG : ∀ {x l pre r}, G x l → Loose v pre (l ++ r) → G ((labelG v).name .ident x) (l.map (labelG v).tok))
    {xs : List (Spanned Str)} {l : List Tok} (h : CommaSep G xs l) :
    ∀ {pre r}, Loose v pre (l ++ r) → CommaSep G (xs.map ((labelG v).name .ident)) (l.map (labelG v).tok) := by
  induction h with
  | nil => intro _ _ _; exact .nil
  | one h => intro pre r hl; exact .one (hG h hl)
  | @cons x l sp y ys l' h _ ih =>
    intro pre r hl
    rw [List.append_assoc] at hl
    rw [List.map_append]
    exact CommaSep.cons (sp := sp) (hG h hl) (ih hl.right.tail)

theorem case_lab {x : Spanned Str} {l pre r : List Tok} (h : CaseG x l) (hl : Loose v pre (l ++ r)) :
    CaseG ((labelG v).name .ident x) (l.map (labelG v).tok) := by
  obtain ⟨ty, u, k, e, rfl⟩ := h
  have hk : v (c!"label", k) = none := Loose.eq (a := [typeTok ty, u]) (b := identTok x :: r) hl
  exact ⟨ty, (labelG v).tok u, k, e, by simp only [List.map_cons, List.map_nil, lab_kept hk, lab_identTok]; rfl⟩

theorem edge_lab {x : Spanned Str} {l pre r : List Tok} (h : EdgeG x l) (_ : Loose v pre (l ++ r)) :
    EdgeG ((labelG v).name .ident x) (l.map (labelG v).tok) := by
  obtain ⟨o, c, vs, e, h, rfl⟩ := h
  refine ⟨o, c, vs.map (labelG v).tok, e, ?_, ?_⟩
  · intro t ht
    obtain ⟨t, ht', rfl⟩ := List.mem_map.mp ht
    rw [ne_eq, ne_eq, lab_eq (by simp), lab_eq (by simp)]
    exact h t ht'
  · simp only [List.map_append, List.map_cons, List.map_nil, lab_identTok]
    rfl

/-- The documented forms keep their form. -/
theorem documented_lab {m ts d l} {pre r : List Tok} (h : Documented m ts d l) (hm : v m = none) (hl : Loose v pre (l ++ r)) :
    Documented m (ts.map ((labelG v).name .ident)) d (l.map (labelG v).tok) := by
  cases h with
  | br =>
    simp only [List.map_append, List.map_cons, List.map_nil, lab_identTok, lab_dbgToks, lab_kept hm]
    exact .br
  | @condBr k i u c t c' e d =>
    simp only [List.map_append, List.map_cons, List.map_nil, lab_identTok, lab_dbgToks, lab_kept hm]
    exact .condBr
  | @overflowBr m ops c k e t c' k' e' t' d hb ho =>
    have e0 : identTok m :: ops ++ [(Token.punct ',', c), (.ident c!"cont", k), (.punct '=', e), identTok t, (.punct ',', c'),
        (.ident c!"overflow", k'), (.punct '=', e'), identTok t'] ++ dbgToks d ++ r
        = [identTok m] ++ (ops ++ ([(Token.punct ',', c), (.ident c!"cont", k), (.punct '=', e), identTok t, (.punct ',', c'),
        (.ident c!"overflow", k'), (.punct '=', e'), identTok t'] ++ (dbgToks d ++ r))) := by simp
    rw [e0] at hl
    have ho' := operands_lab ho (by intro t ht; simp [identTok] at ht; rcases ht with rfl | rfl | rfl | rfl | rfl | rfl | rfl | rfl <;> simp) (by simp) hl.right
    have hk : v (c!"cont", k) = none := Loose.eq (a := [(.punct ',', c)]) hl.right.right
    have hk' : v (c!"overflow", k') = none := Loose.eq (a := [(.punct ',', c), (.ident c!"cont", k), (.punct '=', e), identTok t, (.punct ',', c')]) hl.right.right
    have hm' : (labelG v).tok (identTok m) = identTok m := lab_kept hm
    simp only [List.map_append, List.map_cons, List.map_nil, lab_dbgToks, hm', lab_kept hk, lab_kept hk', lab_identTok (x := t), lab_identTok (x := t')]
    exact .overflowBr hb ho'
  | @switch k ops c k' e t c' ts cases d ho hs =>
    have e0 : (Token.ident c!"switch", k) :: ops ++ [(Token.punct ',', c), (.ident c!"default", k'), (.punct '=', e), identTok t, (.punct ',', c')] ++ cases ++ dbgToks d ++ r
        = [(Token.ident c!"switch", k)] ++ (ops ++ ([(Token.punct ',', c), (.ident c!"default", k'), (.punct '=', e), identTok t, (.punct ',', c')] ++
          (cases ++ (dbgToks d ++ r)))) := by simp
    rw [e0] at hl
    have ho' := operands_lab ho (by intro t ht; simp [identTok] at ht; rcases ht with rfl | rfl | rfl | rfl | rfl <;> simp) (by simp) hl.right
    have hk : v (c!"default", k') = none := Loose.eq (a := [(.punct ',', c)]) hl.right.right
    have hs' := commaSep_lab case_lab hs hl.right.right.right
    simp only [List.map_append, List.map_cons, List.map_nil, lab_dbgToks, lab_kept hm, lab_kept hk, lab_identTok]
    exact .switch ho' hs'
  | @phi k ts edges d hs =>
    have e0 : (Token.ident c!"phi", k) :: edges ++ dbgToks d ++ r = [(Token.ident c!"phi", k)] ++ (edges ++ (dbgToks d ++ r)) := by simp
    rw [e0] at hl
    have hs' := commaSep_lab edge_lab hs hl.right
    simp only [List.map_append, List.map_cons, lab_dbgToks, lab_kept hm]
    exact .phi hs'

/-- Where an instruction may start. -/
def StartsLine (pre : List Tok) : Prop :=
  (∃ p nl, pre = p ++ [(.newline, nl)]) ∨ ∃ p x e, pre = p ++ [localTok x, (.punct '=', e)]

/-- Mnemonics do not stand where labels stand. -/
theorem mnemonic_kept {m ts d l nl} {pre r : List Tok} (h : BodyForm m ts d l) (hp : StartsLine pre) (hl : Loose v pre (l ++ (.newline, nl) :: r)) : v m = none := by
  refine Classical.byContradiction fun hv => ?_
  have key : ∀ {l'}, l = identTok m :: l' → ∃ c nl' b', l' ++ (.newline, nl) :: r = (.punct ':', c) :: (.newline, nl') :: b' := by
    rintro l' rfl
    have := hl [] m.1 m.2 _ rfl hv
    rcases hp with ⟨p, nl', rfl⟩ | ⟨p, x, e, rfl⟩
    · exact this.line p nl' (by simp)
    · exact absurd (by simp) (this.assign p x e)
  have soon : ∀ {s : List Tok}, (∃ c nl' b', s = (.punct ':', c) :: (.newline, nl') :: b') → EndsSoon s := by
    rintro s ⟨c, nl', b', rfl⟩
    refine ⟨[(.punct ':', c)], nl', b', rfl, by simp, ?_⟩
    rintro a' c' h
    cases a' with
    | nil => cases h
    | cons _ a' => cases a' <;> cases h
  cases h with
  | br =>
    obtain ⟨_, _, _, h⟩ := key rfl
    cases h
  | condBr =>
    obtain ⟨_, _, _, h⟩ := key rfl
    cases h
  | @overflowBr m ops c k e t c' k' e' t' d ho =>
    have := soon (key (by simp only [List.cons_append]; rfl))
    rw [List.append_assoc, List.append_assoc] at this
    exact endsSoon_not ho (by intro t ht; simp [identTok] at ht; rcases ht with rfl | rfl | rfl | rfl | rfl | rfl | rfl | rfl <;> simp) (by simp) this
  | @switch k ops c k' e t c' ts cases d ho hs =>
    have := soon (key (by simp only [List.cons_append]; rfl))
    rw [List.append_assoc, List.append_assoc, List.append_assoc] at this
    exact endsSoon_not ho (by intro t ht; simp [identTok] at ht; rcases ht with rfl | rfl | rfl | rfl | rfl <;> simp) (by simp) this
  | @phi k ts edges d hs =>
    obtain ⟨_, _, _, h⟩ := key (by simp only [List.cons_append]; rfl)
    cases hs with
    | nil => cases d <;> cases h
    | one h1 => obtain ⟨_, _, _, _, _, rfl⟩ := h1; cases h
    | cons h1 _ => obtain ⟨_, _, _, _, _, rfl⟩ := h1; cases h
  | @other m ops d h1 h2 =>
    obtain ⟨_, _, _, h⟩ := key (by simp only [List.cons_append]; rfl)
    cases ops with
    | nil => cases d <;> cases h
    | cons u ops =>
      injection h with h _
      subst h
      simp at h2

/-! ### Reading -/

/-- New names and the way back. -/
structure Relabel (v w : Spanned Str → Option Str) (pre s : List Tok) : Prop where
  there : Loose v pre s
  back : Loose w (pre.map (labelG v).tok) (s.map (labelG v).tok)
  inv : ∀ t ∈ s, (labelG w).tok ((labelG v).tok t) = t

theorem Relabel.right {pre l r : List Tok} (h : Relabel v w pre (l ++ r)) : Relabel v w (pre ++ l) r := by
  refine ⟨h.there.right, ?_, fun t ht => h.inv t (by simp [ht])⟩
  have := h.back
  rw [List.map_append] at this ⊢
  exact this.right

theorem Relabel.tail {pre r : List Tok} {t : Tok} (h : Relabel v w pre (t :: r)) : Relabel v w (pre ++ [t]) r := Relabel.right (l := [t]) h

theorem Relabel.inv_map {pre s : List Tok} (h : Relabel v w pre s) : (s.map (labelG v).tok).map (labelG w).tok = s := by
  rw [List.map_map]
  exact (List.map_congr_left fun t ht => h.inv t ht).trans (List.map_id s)

theorem startsLine_lab {pre : List Tok} (h : StartsLine pre) : StartsLine (pre.map (labelG v).tok) := by
  rcases h with ⟨p, nl, rfl⟩ | ⟨p, x, e, rfl⟩
  · exact .inl ⟨p.map (labelG v).tok, nl, by rw [List.map_append]; rfl⟩
  · exact .inr ⟨p.map (labelG v).tok, x, e, by rw [List.map_append]; rfl⟩

theorem documented_body {m ts d l} (h : Documented m ts d l) : BodyForm m ts d l := lineAt_body (r := []) (.known h)

theorem startsDocumented_lab {pre s : List Tok} (hp : StartsLine pre) (hl : Loose v pre s) (h : StartsDocumented s) : StartsDocumented (s.map (labelG v).tok) := by
  obtain ⟨m, ts, d, l, nl, r, h1, rfl⟩ := h
  refine ⟨m, _, d, _, nl, r.map (labelG v).tok, documented_lab h1 (mnemonic_kept (documented_body h1) hp hl) hl, ?_⟩
  rw [List.map_append]
  rfl

theorem otherForm_lab {m d l} {pre r : List Tok} {nl} (hp : StartsLine pre) (hl : Loose v pre (l ++ (.newline, nl) :: r)) (h : OtherForm m d l) :
    OtherForm m d (l.map (labelG v).tok) := by
  obtain ⟨ops, h1, h2, rfl⟩ := h
  have hm : (labelG v).tok (identTok m) = identTok m := lab_kept (mnemonic_kept (.other h1 h2) hp hl)
  refine ⟨ops.map (labelG v).tok, ?_, ?_, by simp only [List.map_append, List.map_cons, hm, lab_dbgToks]⟩
  · intro t ht
    obtain ⟨t, ht', rfl⟩ := List.mem_map.mp ht
    refine ⟨by rw [ne_eq, lab_eq (by simp)]; exact (h1 t ht').1, fun s => by rw [ne_eq, lab_eq (by simp)]; exact (h1 t ht').2 s⟩
  · cases ops with
    | nil => exact h2
    | cons t ops =>
      simp only [List.map_cons, List.head?_cons, Option.map_some, ne_eq, Option.some.injEq] at h2 ⊢
      rwa [lab_eq (by simp)]

theorem startsOther_lab {pre s : List Tok} (hp : StartsLine pre) (hl : Loose v pre s) (h : StartsOther s) : StartsOther (s.map (labelG v).tok) := by
  obtain ⟨m, d, l, nl, r, h1, rfl⟩ := h
  refine ⟨m, d, _, nl, r.map (labelG v).tok, otherForm_lab hp hl h1, ?_⟩
  rw [List.map_append]
  rfl

theorem overflowForm_lab {m ts d l} {pre r : List Tok} (hm : v m = none) (hl : Loose v pre (l ++ r)) (h : OverflowForm m ts d l) :
    OverflowForm m (ts.map ((labelG v).name .ident)) d (l.map (labelG v).tok) := by
  obtain ⟨ops, c, k, e, t, c', k', e', t', ho, rfl, rfl⟩ := h
  have e0 : identTok m :: ops ++ [(Token.punct ',', c), (.ident c!"cont", k), (.punct '=', e), identTok t, (.punct ',', c'),
      (.ident c!"overflow", k'), (.punct '=', e'), identTok t'] ++ dbgToks d ++ r
      = [identTok m] ++ (ops ++ ([(Token.punct ',', c), (.ident c!"cont", k), (.punct '=', e), identTok t, (.punct ',', c'),
      (.ident c!"overflow", k'), (.punct '=', e'), identTok t'] ++ (dbgToks d ++ r))) := by simp
  rw [e0] at hl
  have ho' := operands_lab ho (by intro t ht; simp [identTok] at ht; rcases ht with rfl | rfl | rfl | rfl | rfl | rfl | rfl | rfl <;> simp) (by simp) hl.right
  have hk : v (c!"cont", k) = none := Loose.eq (a := [(.punct ',', c)]) hl.right.right
  have hk' : v (c!"overflow", k') = none := Loose.eq (a := [(.punct ',', c), (.ident c!"cont", k), (.punct '=', e), identTok t, (.punct ',', c')]) hl.right.right
  have hm' : (labelG v).tok (identTok m) = identTok m := lab_kept hm
  simp only [List.map_append, List.map_cons, List.map_nil, lab_dbgToks, hm', lab_kept hk, lab_kept hk', lab_identTok (x := t), lab_identTok (x := t')]
  exact ⟨_, c, k, e, _, c', k', e', _, ho', rfl, rfl⟩

theorem lineAt_lab {m ts d odd l nl} {pre r : List Tok} (hp : StartsLine pre) (hl : Relabel v w pre (l ++ (.newline, nl) :: r))
    (h : LineAt m ts d odd l ((.newline, nl) :: r)) :
    v m = none ∧ LineAt m (ts.map ((labelG v).name .ident)) d odd (l.map (labelG v).tok) (((.newline, nl) :: r).map (labelG v).tok) := by
  have hm := mnemonic_kept (lineAt_body h) hp hl.there
  refine ⟨hm, ?_⟩
  have back : StartsDocumented (l.map (labelG v).tok ++ ((.newline, nl) :: r).map (labelG v).tok) → StartsDocumented (l ++ (.newline, nl) :: r) := by
    intro hs
    rw [← List.map_append] at hs
    have := startsDocumented_lab (startsLine_lab hp) hl.back hs
    rwa [hl.inv_map] at this
  have back' : StartsOther (l.map (labelG v).tok ++ ((.newline, nl) :: r).map (labelG v).tok) → StartsOther (l ++ (.newline, nl) :: r) := by
    intro hs
    rw [← List.map_append] at hs
    have := startsOther_lab (startsLine_lab hp) hl.back hs
    rwa [hl.inv_map] at this
  cases h with
  | known h => exact .known (documented_lab h hm hl.there)
  | other h hn => exact .other (otherForm_lab hp hl.there h) (fun hs => hn (back hs))
  | odd h hn hn' => exact .odd (overflowForm_lab hm hl.there h) (fun hs => hn (back hs)) (fun hs => hn' (back' hs))

theorem instrAt_lab {i odd l nl} {pre r : List Tok} (hp : ∃ p nl, pre = p ++ [(.newline, nl)]) (hl : Relabel v w pre (l ++ (.newline, nl) :: r))
    (h : InstrAt i odd l ((.newline, nl) :: r)) :
    v i.instruction = none ∧ InstrAt ((labelG v).instr i) odd (l.map (labelG v).tok) (((.newline, nl) :: r).map (labelG v).tok) := by
  obtain ⟨asg, body, h1, h2, rfl, h4⟩ := h
  have hasg : asg.map (labelG v).tok = asg := by
    generalize i.assignmentTarget = t at h1
    cases h1 <;> rfl
  have hp' : StartsLine (pre ++ asg) := by
    generalize i.assignmentTarget = t at h1
    cases h1 with
    | none => rw [List.append_nil]; exact .inl hp
    | @some ty n e => exact .inr ⟨pre ++ [typeTok ty], n, e, by simp⟩
  rw [List.append_assoc] at hl
  obtain ⟨hm, hb⟩ := lineAt_lab hp' hl.right h2
  refine ⟨hm, asg, body.map (labelG v).tok, ?_, ?_, by rw [List.map_append, hasg], ?_⟩
  · show AssignG (i.assignmentTarget.map _) asg
    rw [show ((labelG v).name .localName) = id from funext fun x => lab_name (by simp) x, Option.map_id]
    exact h1
  · show LineAt ((labelG v).name .ident i.instruction) _ (i.dbgRef.map _) _ _ _
    rw [show ((labelG v).name .debugRef) = id from funext fun x => lab_name (by simp) x, Option.map_id]
    rw [show (labelG v).name .ident i.instruction = i.instruction by
      unfold Renaming.name; rw [show (labelG v).ren (.ident i.instruction.1, i.instruction.2) = none from hm]; rfl]
    exact hb
  · rw [lab_hull]; exact h4

theorem ends_newlines {pre nls : List Tok} (h : Newlines nls) (h' : nls ≠ []) : ∃ p nl, pre ++ nls = p ++ [(.newline, nl)] := by
  refine ⟨pre ++ nls.dropLast, (nls.getLast h').2, ?_⟩
  rw [List.append_assoc, show ((.newline, (nls.getLast h').2) : Tok) = nls.getLast h' from
    Prod.ext (h _ (List.getLast_mem h')).symm rfl, List.dropLast_concat_getLast]

theorem instrsAt_lab {is odd l r} (h : InstrsAt is odd l r) : ∀ {pre : List Tok}, (∃ p nl, pre = p ++ [(.newline, nl)]) → Relabel v w pre (l ++ r) →
    (∀ i ∈ is, v i.instruction = none) ∧ InstrsAt (is.map (labelG v).instr) odd (l.map (labelG v).tok) (r.map (labelG v).tok) := by
  induction h with
  | nil => intro pre _ _; exact ⟨by simp, .nil⟩
  | @cons i is o o' l nls l' r h1 h2 h3 h4 ih =>
    intro pre hp hl
    rw [List.append_assoc, List.append_assoc] at hl
    obtain ⟨nl, nls', rfl⟩ := newlines_cons h2 h3
    obtain ⟨a1, a2⟩ := instrAt_lab hp hl h1
    have hl2 := hl.right.right
    obtain ⟨b1, b2⟩ := ih (ends_newlines h2 h3) hl2
    refine ⟨?_, ?_⟩
    · intro j hj
      rcases List.mem_cons.mp hj with rfl | hj
      · exact a1
      · exact b1 j hj
    · rw [List.map_append, List.map_append, lab_newlines h2]
      refine .cons ?_ h2 h3 b2
      have e0 : ((Token.newline, nl) :: (nls'.append (l' ++ r))).map (labelG v).tok
          = (Token.newline, nl) :: nls' ++ (l'.map (labelG v).tok ++ r.map (labelG v).tok) := by
        rw [show (Token.newline, nl) :: (nls'.append (l' ++ r)) = ((Token.newline, nl) :: nls') ++ (l' ++ r) from rfl, List.map_append, lab_newlines h2, List.map_append]
      rwa [e0] at a2

theorem getLast_instr {is : List Instruction} {sp : Span} :
    (match (is.map (labelG v).instr).getLast? with | some i => i.span.stop | none => sp.stop)
      = (match is.getLast? with | some i => i.span.stop | none => sp.stop) := by
  rw [List.getLast?_map]
  cases is.getLast? <;> rfl

/-- The instructions keep their mnemonics. -/
def Kept (v : Spanned Str → Option Str) (bs : List BasicBlock) : Prop := ∀ b ∈ bs, ∀ i ∈ b.instructions, v i.instruction = none

theorem blockAt_lab {b odd l r} {pre : List Tok} (h : BlockAt b odd l r) (hl : Relabel v w pre (l ++ r)) :
    Kept v [b] ∧ BlockAt ((labelG v).block b) odd (l.map (labelG v).tok) (r.map (labelG v).tok) := by
  obtain ⟨label, comma, nls, is, hn, hn', hi, rfl, hb1, hb2, hb3⟩ := h
  rw [List.append_assoc, List.append_assoc] at hl
  obtain ⟨a1, a2⟩ := instrsAt_lab hi (ends_newlines hn hn') hl.right.right
  refine ⟨by intro b' hb'; rw [List.mem_singleton] at hb'; subst hb'; exact a1, (labelG v).name .ident label, comma, nls, _, hn, hn', a2, ?_, ?_, ?_, ?_⟩
  · simp only [List.map_append, List.map_cons, List.map_nil, lab_newlines hn, lab_identTok]
    rfl
  · show b.label.map _ = _
    rw [hb1]; rfl
  · show b.labelCommaSpan.map _ = _
    rw [hb2]; rfl
  · show (labelG v).span b.span = _
    rw [hb3]
    show _ = Span.mk _ (match (b.instructions.map (labelG v).instr).getLast? with | some i => i.span.stop | none => label.2.stop)
    rw [getLast_instr]
    rfl

theorem blocksAt_lab {bs odd l r} (h : BlocksAt bs odd l r) : ∀ {pre : List Tok}, Relabel v w pre (l ++ r) →
    Kept v bs ∧ BlocksAt (bs.map (labelG v).block) odd (l.map (labelG v).tok) (r.map (labelG v).tok) := by
  induction h with
  | nil => intro pre _; exact ⟨(by intro b hb; cases hb), .nil⟩
  | cons h1 _ ih =>
    intro pre hl
    rw [List.append_assoc] at hl
    obtain ⟨a1, a2⟩ := blockAt_lab h1 hl
    obtain ⟨b1, b2⟩ := ih hl.right
    rw [List.map_append] at a2 ⊢
    refine ⟨?_, .cons a2 b2⟩
    intro b hb
    rcases List.mem_cons.mp hb with rfl | hb
    · exact a1 _ (by simp)
    · exact b1 _ hb

theorem firstBlockAt_lab {b odd l r} {pre : List Tok} (h : FirstBlockAt b odd l r) (hp : ∃ p nl, pre = p ++ [(.newline, nl)]) (hl : Relabel v w pre (l ++ r)) :
    Kept v [b] ∧ FirstBlockAt ((labelG v).block b) odd (l.map (labelG v).tok) (r.map (labelG v).tok) := by
  obtain ⟨f, la, h1, h2, h3, h4, h5, h6⟩ := h
  obtain ⟨a1, a2⟩ := instrsAt_lab h1 hp hl
  refine ⟨by intro b' hb'; rw [List.mem_singleton] at hb'; subst hb'; exact a1, (labelG v).instr f, (labelG v).instr la, a2, ?_, ?_, ?_, ?_, ?_⟩
  · show (b.instructions.map _).head? = _
    rw [List.head?_map, h2]; rfl
  · show (b.instructions.map _).getLast? = _
    rw [List.getLast?_map, h3]; rfl
  · show b.label.map _ = _
    rw [h4]; rfl
  · show b.labelCommaSpan.map _ = _
    rw [h5]; rfl
  · show (labelG v).span b.span = _
    rw [h6]; rfl

theorem allBlocksAt_lab {bs odd l r} {pre : List Tok} (h : AllBlocksAt bs odd l r) (hp : ∃ p nl, pre = p ++ [(.newline, nl)]) (hl : Relabel v w pre (l ++ r)) :
    Kept v bs ∧ AllBlocksAt (bs.map (labelG v).block) odd (l.map (labelG v).tok) (r.map (labelG v).tok) := by
  cases h with
  | labelled h => exact ⟨(blocksAt_lab h hl).1, .labelled (blocksAt_lab h hl).2⟩
  | unlabelled h1 h2 =>
    rw [List.append_assoc] at hl
    obtain ⟨a1, a2⟩ := firstBlockAt_lab h1 hp hl
    obtain ⟨b1, b2⟩ := blocksAt_lab h2 hl.right
    rw [List.map_append] at a2 ⊢
    refine ⟨?_, .unlabelled a2 b2⟩
    intro b hb
    rcases List.mem_cons.mp hb with rfl | hb
    · exact a1 _ (by simp)
    · exact b1 _ hb

theorem bodyAt_lab {b odd l r} {pre : List Tok} (h : BodyAt b odd l r) (hl : Relabel v w pre (l ++ r)) :
    Kept v b.basicBlocks ∧ BodyAt ((labelG v).body b) odd (l.map (labelG v).tok) (r.map (labelG v).tok) := by
  obtain ⟨nls, bl, hn, hn', hb, rfl⟩ := h
  have e0 : (Token.punct '{', b.openingBracket) :: nls ++ bl ++ [(.punct '}', b.closingBracket)] ++ r
      = [(Token.punct '{', b.openingBracket)] ++ (nls ++ (bl ++ (.punct '}', b.closingBracket) :: r)) := by simp
  rw [e0] at hl
  obtain ⟨a1, a2⟩ := allBlocksAt_lab hb (ends_newlines hn hn') hl.right.right
  refine ⟨a1, nls, _, hn, hn', a2, ?_⟩
  simp only [List.map_append, List.map_cons, List.map_nil, lab_newlines hn]
  rfl

theorem args_lab {as : List FuncArg} {l : List Tok} (h : CommaSep ArgG as l) : l.map (labelG v).tok = l := by
  induction h with
  | nil => rfl
  | one h => rw [h]; rfl
  | cons h _ ih =>
    rw [List.map_append, List.map_cons, ih, h]
    rfl

theorem sig_lab {s : FuncSignature} {l : List Tok} (h : SigG s l) : (labelG v).sig s = s ∧ l.map (labelG v).tok = l := by
  obtain ⟨o, args, c, h1, rfl⟩ := h
  constructor
  · unfold Renaming.sig
    rw [lab_name (by simp), show (labelG v).arg = id from funext fun a => by unfold Renaming.arg; rw [lab_name (by simp)]; rfl,
      show ((labelG v).moved : Spanned Str → Spanned Str) = id from rfl, List.map_id, List.map_id]
    rfl
  · simp only [List.map_append, args_lab h1, List.map_map, List.map_cons, List.map_nil]
    rfl

theorem globals_lab {as : List (Spanned Str)} {l : List Tok} (h : CommaSep (fun x l => l = [globalTok x]) as l) : l.map (labelG v).tok = l := by
  induction h with
  | nil => rfl
  | one h => rw [h]; rfl
  | cons h _ ih =>
    rw [List.map_append, List.map_cons, ih, h]
    rfl

theorem stmtAt_lab {x odd l r} {pre : List Tok} (h : StmtAt x odd l r) (hl : Relabel v w pre (l ++ r)) :
    (∀ k s b, x = .funcDef k s b → Kept v b.basicBlocks) ∧ StmtAt ((labelG v).stmt x) odd (l.map (labelG v).tok) (r.map (labelG v).tok) := by
  have hdbg : ((labelG v).name .debugRef) = id := funext fun x => lab_name (by simp) x
  cases h with
  | @funcDef k s sl b o bl _ hs hb =>
    have e0 : (Token.define, k) :: sl ++ bl ++ r = ((Token.define, k) :: sl) ++ (bl ++ r) := by simp
    rw [e0] at hl
    obtain ⟨a1, a2⟩ := bodyAt_lab hb hl.right
    refine ⟨by intro k' s' b' he; cases he; exact a1, ?_⟩
    simp only [Renaming.stmt, (sig_lab hs).1, List.map_append, List.map_cons, (sig_lab hs).2]
    exact .funcDef hs a2
  | plain hn h =>
    refine ⟨fun k s b he => absurd he (hn k s b), ?_⟩
    cases h with
    | globalVar h =>
      simp only [Renaming.stmt, lab_name (mk := .globalName) (v := v) (by simp)]
      exact .plain (by simp) (.globalVar (lab_oneLine h))
    | funcDecl h =>
      simp only [Renaming.stmt, (sig_lab h).1, List.map_append, List.map_cons, (sig_lab h).2, lab_dbgToks, hdbg, Option.map_id]
      exact .plain (by simp) (.funcDecl h)
    | @funcDeclAddr k s sl e a d h =>
      simp only [Renaming.stmt, (sig_lab h).1, List.map_append, List.map_cons, List.map_nil, (sig_lab h).2, lab_dbgToks, hdbg, Option.map_id, Option.map_some]
      exact .plain (by simp) (.funcDeclAddr h)
    | funcDef => exact absurd rfl (hn _ _ _)
    | @funcDependencies n k k' ds dl h =>
      have hk : v (c!"depends", k) = none := by
        refine Classical.byContradiction fun hv => ?_
        exact (hl.there [globalTok n] c!"depends" k _ rfl hv).depends pre n (by simp)
      have hk' : v (c!"on", k') = none := by
        refine Classical.byContradiction fun hv => ?_
        exact (hl.there [globalTok n, (.ident c!"depends", k)] c!"on" k' _ rfl hv).on pre n (c!"depends", k) (by simp [identTok])
      simp only [Renaming.stmt, lab_name (mk := .globalName) (v := v) (by simp), List.map_cons, globals_lab h, lab_kept hk, lab_kept hk']
      rw [show ((labelG v).name .globalName) = id from funext fun x => lab_name (by simp) x, List.map_id]
      exact .plain (by simp) (.funcDependencies h)
    | dbgAnnotation h =>
      simp only [Renaming.stmt, hdbg]
      exact .plain (by simp) (.dbgAnnotation (lab_oneLine h))

theorem stmtEnds_lab {x : Statement} {r : List Tok} (h : StmtEnds x r) : StmtEnds ((labelG v).stmt x) (r.map (labelG v).tok) := by
  cases x with
  | funcDependencies n ds =>
    cases ds with
    | nil =>
      intro y sp r' he
      cases r with
      | nil => cases he
      | cons t r =>
        injection he with he _
        rw [lab_tok_eq (by simp)] at he
        subst he
        exact h y sp r rfl
    | cons d ds =>
      intro c y sp r' he
      cases r with
      | nil => cases he
      | cons t r =>
        injection he with he he'
        rw [lab_tok_eq (by simp)] at he
        subst he
        cases r with
        | nil => cases he'
        | cons t r =>
          injection he' with he' _
          rw [lab_tok_eq (by simp)] at he'
          subst he'
          exact h c y sp r rfl
  | _ => exact congrArg (List.map (labelG v).tok) h

theorem readAt_lab {x odd l r} {pre : List Tok} (h : ReadAt x odd l r) (hl : Relabel v w pre (l ++ r)) :
    (∀ k s b, x = .funcDef k s b → Kept v b.basicBlocks) ∧ ReadAt ((labelG v).stmt x) odd (l.map (labelG v).tok) (r.map (labelG v).tok) := by
  obtain ⟨nls, body, nls', h1, h2, h3, rfl, h4, h5⟩ := h
  rw [List.append_assoc, List.append_assoc] at hl
  obtain ⟨a1, a2⟩ := stmtAt_lab h2 hl.right
  rw [List.map_append, lab_newlines h3] at a2
  refine ⟨a1, nls, body.map (labelG v).tok, nls', h1, a2, h3, by simp only [List.map_append, lab_newlines h1, lab_newlines h3], fun he => stmtEnds_lab (h4 he), ?_⟩
  intro sp r' he
  cases r with
  | nil => cases he
  | cons t r =>
    injection he with he _
    rw [lab_tok_eq (by simp)] at he
    subst he
    exact h5 sp r rfl

theorem Relabel.symm {pre s : List Tok} (h : Relabel v w pre s) (hp : ∀ t ∈ pre, (labelG w).tok ((labelG v).tok t) = t) :
    Relabel w v (pre.map (labelG v).tok) (s.map (labelG v).tok) := by
  refine ⟨h.back, ?_, ?_⟩
  · have : (pre.map (labelG v).tok).map (labelG w).tok = pre := by
      rw [List.map_map]
      exact (List.map_congr_left fun t ht => hp t ht).trans (List.map_id pre)
    rw [h.inv_map, this]
    exact h.there
  · intro t ht
    obtain ⟨t, ht', rfl⟩ := List.mem_map.mp ht
    rw [h.inv t ht']

theorem barrenAt_lab {g r : List Tok} {pre : List Tok} (h : BarrenAt g r) (hl : Relabel v w pre (g ++ r)) (hp : ∀ t ∈ pre, (labelG w).tok ((labelG v).tok t) = t) :
    BarrenAt (g.map (labelG v).tok) (r.map (labelG v).tok) := by
  refine ⟨by simpa using h.1, ?_⟩
  intro a' b' hg hb' x o l r' he hx
  obtain ⟨a, b, rfl, rfl, rfl⟩ := List.map_eq_append_iff.mp hg
  rw [List.append_assoc] at hl
  have hl' := hl.right
  have hp' : ∀ t ∈ pre ++ a, (labelG w).tok ((labelG v).tok t) = t := by
    intro t ht
    rcases List.mem_append.mp ht with ht | ht
    · exact hp t ht
    · exact hl.inv t (by simp [ht])
  have hs := hl'.symm hp'
  rw [List.map_append (l₁ := b), he] at hs
  have := (readAt_lab hx hs).2
  refine h.2 a b rfl (by rintro rfl; exact hb' rfl) _ _ _ _ ?_ this
  rw [← List.map_append, ← he, ← List.map_append, hl'.inv_map]

/-- The document is read in the same way. -/
theorem layout_lab {ss o gs whole l} (h : Layout ss o gs whole l) : ∀ {pre : List Tok}, Relabel v w pre l →
    (∀ t ∈ pre, (labelG w).tok ((labelG v).tok t) = t) →
    (∀ k s b, .funcDef k s b ∈ ss → Kept v b.basicBlocks) ∧
    Layout (ss.map (labelG v).stmt) o (gs.map (List.map (labelG v).tok)) whole (l.map (labelG v).tok) := by
  have hmem : ∀ {x : Statement} {ss : List Statement}, (∀ k s b, x = .funcDef k s b → Kept v b.basicBlocks) →
      (∀ k s b, .funcDef k s b ∈ ss → Kept v b.basicBlocks) → ∀ k s b, .funcDef k s b ∈ x :: ss → Kept v b.basicBlocks := by
    intro x ss h1 h2 k s b hm
    rcases List.mem_cons.mp hm with he | hm
    · exact h1 k s b he.symm
    · exact h2 k s b hm
  have hpre : ∀ {pre l r : List Tok}, Relabel v w pre (l ++ r) → (∀ t ∈ pre, (labelG w).tok ((labelG v).tok t) = t) →
      ∀ t ∈ pre ++ l, (labelG w).tok ((labelG v).tok t) = t := by
    intro pre l r hl hp t ht
    rcases List.mem_append.mp ht with ht | ht
    · exact hp t ht
    · exact hl.inv t (by simp [ht])
  induction h with
  | done => intro pre _ _; exact ⟨by simp, .done⟩
  | lost h =>
    intro pre hl hp
    exact ⟨by simp, .lost (barrenAt_lab h (by rwa [List.append_nil]) hp)⟩
  | stmt h1 _ ih =>
    intro pre hl hp
    obtain ⟨a1, a2⟩ := readAt_lab h1 hl
    obtain ⟨b1, b2⟩ := ih hl.right (hpre hl hp)
    rw [List.map_append]
    exact ⟨hmem a1 b1, .stmt a2 b2⟩
  | skip h0 h1 _ ih =>
    intro pre hl hp
    have b := barrenAt_lab h0 hl hp
    have hl1 := hl.right
    have hp1 := hpre hl hp
    obtain ⟨a1, a2⟩ := readAt_lab h1 hl1
    obtain ⟨b1, b2⟩ := ih hl1.right (hpre hl1 hp1)
    rw [List.map_append] at b
    refine ⟨hmem a1 b1, ?_⟩
    simp only [List.map_cons, List.map_append]
    exact .skip b a2 b2

end
end HyperIR
