import Verif.Proofs.Relabel
import Verif.Spec.Symbols

/- Labels stand where no word is expected that makes up an instruction. -/

namespace HyperIR
open Spec

/-- The identifier at the place stands where labels stand. -/
def StandsIn (pre s : List Tok) (sp : Span) : Prop := ∃ a n b, s = a ++ (.ident n, sp) :: b ∧ Around (pre ++ a) b

/-- The tokens do not begin with `=`. -/
def NoEq (r : List Tok) : Prop := ∃ t b', r = t :: b' ∧ t.1 ≠ .punct '='

section
variable {pre l r a b : List Tok} {sp : Span}

theorem StandsIn.right (h : StandsIn (pre ++ l) r sp) : StandsIn pre (l ++ r) sp := by
  obtain ⟨a, n, b, rfl, h⟩ := h
  exact ⟨l ++ a, n, b, by simp, by simpa using h⟩

theorem StandsIn.tail {t : Tok} (h : StandsIn (pre ++ [t]) r sp) : StandsIn pre (t :: r) sp := StandsIn.right (l := [t]) h

theorem around_eq {x : Spanned Str} {e : Span} (h : NoEq b) : Around (a ++ [identTok x, (.punct '=', e)]) b := by
  refine ⟨h, ?_, ?_, ?_, ?_, ?_⟩
  · intro a' c h
    have := congrArg List.getLast? h
    simp at this
  · intro a' c h
    have := congrArg List.getLast? h
    simp at this
  · intro a' y e' h
    have := (List.append_inj' h rfl).2
    simp [identTok, localTok] at this
  · intro a' g h
    have := congrArg List.getLast? h
    simp [globalTok] at this
  · intro a' g y h
    have := congrArg List.getLast? h
    simp [identTok] at this

theorem around_comma {c : Span} (h : NoEq b) (h' : EndsSoon b) : Around (a ++ [(.punct ',', c)]) b := by
  refine ⟨h, fun _ _ _ => h', ?_, ?_, ?_, ?_⟩
  · intro a' c h
    have := congrArg List.getLast? h
    simp at this
  · intro a' y e' h
    have := congrArg List.getLast? h
    simp at this
  · intro a' g h
    have := congrArg List.getLast? h
    simp [globalTok] at this
  · intro a' g y h
    have := congrArg List.getLast? h
    simp [identTok] at this

theorem around_bracket {c : Span} (h : NoEq b) : Around (a ++ [(.punct '[', c)]) b := by
  refine ⟨h, ?_, ?_, ?_, ?_, ?_⟩
  · intro a' c h
    have := congrArg List.getLast? h
    simp at this
  · intro a' c h
    have := congrArg List.getLast? h
    simp at this
  · intro a' y e' h
    have := congrArg List.getLast? h
    simp at this
  · intro a' g h
    have := congrArg List.getLast? h
    simp [globalTok] at this
  · intro a' g y h
    have := congrArg List.getLast? h
    simp [identTok] at this

theorem around_br {x : Spanned Str} (hp : StartsLine pre) (h : NoEq b) : Around (pre ++ [identTok x]) b := by
  refine ⟨h, ?_, ?_, ?_, ?_, ?_⟩
  · intro a' c h
    have := congrArg List.getLast? h
    simp [identTok] at this
  · intro a' c h
    have := congrArg List.getLast? h
    simp [identTok] at this
  · intro a' y e' h
    have := congrArg List.getLast? h
    simp [identTok] at this
  · intro a' g h
    have := congrArg List.getLast? h
    simp [globalTok, identTok] at this
  · intro a' g y h
    have h0 : pre ++ [identTok x] = (a' ++ [globalTok g]) ++ [identTok y] := by rw [h]; simp
    have h1 := (List.append_inj' h0 rfl).1
    have := congrArg List.getLast? h1
    rcases hp with ⟨p, nl, rfl⟩ | ⟨p, z, e, rfl⟩ <;> simp [globalTok] at this

theorem around_label {c nl nl' : Span} : Around (a ++ [(.newline, nl)]) ((.punct ':', c) :: (.newline, nl') :: b) := by
  refine ⟨⟨_, _, rfl, by simp⟩, ?_, fun _ _ _ => ⟨_, _, _, rfl⟩, ?_, ?_, ?_⟩
  · intro a' c h
    have := congrArg List.getLast? h
    simp at this
  · intro a' y e' h
    have := congrArg List.getLast? h
    simp at this
  · intro a' g h
    have := congrArg List.getLast? h
    simp [globalTok] at this
  · intro a' g y h
    have := congrArg List.getLast? h
    simp [identTok] at this

theorem noEq_dbg {d : Option (Spanned Str)} {nl : Span} : NoEq (dbgToks d ++ (.newline, nl) :: r) := by
  cases d with
  | none => exact ⟨_, _, rfl, by simp⟩
  | some d => exact ⟨_, _, rfl, by simp [dbgTok]⟩

theorem noEq_comma {c : Span} : NoEq ((.punct ',', c) :: r) := ⟨_, _, rfl, by simp⟩

theorem commaSep_stands {G : Spanned Str → List Tok → Prop} (hG : ∀ {x l pre r}, G x l → NoEq r → StandsIn pre (l ++ r) x.2)
    {xs : List (Spanned Str)} (h : CommaSep G xs l) : ∀ {pre r}, NoEq r → ∀ x ∈ xs, StandsIn pre (l ++ r) x.2 := by
  induction h with
  | nil => intro _ _ _ x hx; cases hx
  | one h =>
    intro pre r hr x hx
    rw [List.mem_singleton] at hx
    subst hx
    exact hG h hr
  | @cons x l sp y ys l' h _ ih =>
    intro pre r hr z hz
    rw [List.append_assoc]
    rcases List.mem_cons.mp hz with rfl | hz
    · exact hG h noEq_comma
    · exact StandsIn.right (StandsIn.tail (ih hr z hz))

theorem case_stands {x : Spanned Str} {l pre r : List Tok} (h : CaseG x l) (hr : NoEq r) : StandsIn pre (l ++ r) x.2 := by
  obtain ⟨ty, u, k, e, rfl⟩ := h
  refine ⟨[typeTok ty, u, (.ident c!"label", k), (.punct '=', e)], x.1, r, rfl, ?_⟩
  have := around_eq (a := pre ++ [typeTok ty, u]) (x := (c!"label", k)) (e := e) hr
  simpa [identTok] using this

theorem edge_stands {x : Spanned Str} {l pre r : List Tok} (h : EdgeG x l) (_ : NoEq r) : StandsIn pre (l ++ r) x.2 := by
  obtain ⟨o, c, vs, e, _, rfl⟩ := h
  exact ⟨[(.punct '[', o)], x.1, _, rfl, around_bracket noEq_comma⟩

theorem overflow_stands {m : Spanned Str} {ops : List Tok} {c k e c' k' e' : Span} {t t' : Spanned Str} {d : Option (Spanned Str)} {nl : Span} :
    ∀ x ∈ [t, t'], StandsIn pre (identTok m :: ops ++ [(.punct ',', c), (.ident c!"cont", k), (.punct '=', e), identTok t,
        (.punct ',', c'), (.ident c!"overflow", k'), (.punct '=', e'), identTok t'] ++ dbgToks d ++ (.newline, nl) :: r) x.2 := by
  intro x hx
  simp only [List.mem_cons, List.not_mem_nil, or_false] at hx
  rcases hx with rfl | rfl
  · refine ⟨identTok m :: ops ++ [(.punct ',', c), (.ident c!"cont", k), (.punct '=', e)], x.1, _, by simp [identTok]; rfl, ?_⟩
    have := around_eq (a := pre ++ (identTok m :: ops ++ [(.punct ',', c)])) (x := (c!"cont", k)) (e := e)
      (b := (.punct ',', c') :: (.ident c!"overflow", k') :: (.punct '=', e') :: identTok t' :: (dbgToks d ++ (.newline, nl) :: r)) noEq_comma
    simpa [identTok] using this
  · refine ⟨identTok m :: ops ++ [(.punct ',', c), (.ident c!"cont", k), (.punct '=', e), identTok t, (.punct ',', c'),
      (.ident c!"overflow", k'), (.punct '=', e')], x.1, _, by simp [identTok]; rfl, ?_⟩
    have := around_eq (a := pre ++ (identTok m :: ops ++ [(.punct ',', c), (.ident c!"cont", k), (.punct '=', e), identTok t, (.punct ',', c')]))
      (x := (c!"overflow", k')) (e := e') (b := dbgToks d ++ (.newline, nl) :: r) noEq_dbg
    simpa [identTok] using this

theorem endsSoon_dbg {d : Option (Spanned Str)} {nl : Span} : EndsSoon (dbgToks d ++ (.newline, nl) :: r) := by
  refine ⟨dbgToks d, nl, r, rfl, by cases d <;> simp [dbgToks], ?_⟩
  intro a' c h
  have := congrArg List.getLast? h
  cases d <;> simp [dbgToks, dbgTok] at this

theorem documented_stands {m ts d l nl} (h : Documented m ts d l) (hp : StartsLine pre) : ∀ x ∈ ts, StandsIn pre (l ++ (.newline, nl) :: r) x.2 := by
  cases h with
  | @br k t d =>
    intro x hx
    rw [List.mem_singleton] at hx
    subst hx
    exact ⟨[(.ident c!"br", k)], x.1, dbgToks d ++ (.newline, nl) :: r, rfl, around_br (x := (c!"br", k)) hp noEq_dbg⟩
  | @condBr k i u c t c' e d =>
    intro x hx
    simp only [List.mem_cons, List.not_mem_nil, or_false] at hx
    rcases hx with rfl | rfl
    · refine ⟨[(.ident c!"br", k), (.type c!"int1", i), u, (.punct ',', c)], x.1, (.punct ',', c') :: identTok e :: (dbgToks d ++ (.newline, nl) :: r), rfl, ?_⟩
      have := around_comma (a := pre ++ [(.ident c!"br", k), (.type c!"int1", i), u]) (c := c)
        (b := (.punct ',', c') :: identTok e :: (dbgToks d ++ (.newline, nl) :: r)) noEq_comma (by
          refine ⟨(.punct ',', c') :: identTok e :: dbgToks d, nl, r, rfl, by cases d <;> simp [dbgToks], ?_⟩
          intro a' c h
          have := congrArg List.getLast? h
          cases d <;> simp [dbgToks, dbgTok, identTok] at this)
      simpa using this
    · refine ⟨[(.ident c!"br", k), (.type c!"int1", i), u, (.punct ',', c), identTok t, (.punct ',', c')], x.1, dbgToks d ++ (.newline, nl) :: r, rfl, ?_⟩
      have := around_comma (a := pre ++ [(.ident c!"br", k), (.type c!"int1", i), u, (.punct ',', c), identTok t]) (c := c')
        (b := dbgToks d ++ (.newline, nl) :: r) noEq_dbg endsSoon_dbg
      simpa using this
  | overflowBr => exact overflow_stands
  | @switch k ops c k' e t c' ts cases d ho hs =>
    intro x hx
    rcases List.mem_cons.mp hx with rfl | hx
    · refine ⟨(.ident c!"switch", k) :: ops ++ [(.punct ',', c), (.ident c!"default", k'), (.punct '=', e)], x.1, _, by simp [identTok]; rfl, ?_⟩
      have := around_eq (a := pre ++ ((.ident c!"switch", k) :: ops ++ [(.punct ',', c)])) (x := (c!"default", k')) (e := e)
        (b := (.punct ',', c') :: (cases ++ (dbgToks d ++ (.newline, nl) :: r))) noEq_comma
      simpa [identTok] using this
    · have := commaSep_stands case_stands hs (pre := pre ++ ((.ident c!"switch", k) :: ops ++ [(.punct ',', c), (.ident c!"default", k'), (.punct '=', e), identTok t, (.punct ',', c')]))
        (r := dbgToks d ++ (.newline, nl) :: r) noEq_dbg x hx
      have := this.right
      simpa using this
  | @phi k ts edges d hs =>
    intro x hx
    have := (commaSep_stands edge_stands hs (pre := pre ++ [(.ident c!"phi", k)]) (r := dbgToks d ++ (.newline, nl) :: r) noEq_dbg x hx).tail
    simpa using this

theorem lineAt_stands {m ts d odd l nl} (h : LineAt m ts d odd l ((.newline, nl) :: r)) (hp : StartsLine pre) :
    ∀ x ∈ ts, StandsIn pre (l ++ (.newline, nl) :: r) x.2 := by
  cases h with
  | known h => exact documented_stands h hp
  | other _ => simp
  | odd h =>
    obtain ⟨ops, c, k, e, t, c', k', e', t', _, rfl, rfl⟩ := h
    exact overflow_stands

theorem instrAt_stands {i odd l nl} (h : InstrAt i odd l ((.newline, nl) :: r)) (hp : ∃ p nl, pre = p ++ [(.newline, nl)]) :
    ∀ x ∈ i.basicBlockRefs, StandsIn pre (l ++ (.newline, nl) :: r) x.2 := by
  obtain ⟨asg, body, h1, h2, rfl, _⟩ := h
  have hp' : StartsLine (pre ++ asg) := by
    generalize i.assignmentTarget = t at h1
    cases h1 with
    | none => rw [List.append_nil]; exact .inl hp
    | @some ty n e => exact .inr ⟨pre ++ [typeTok ty], n, e, by simp⟩
  intro x hx
  rw [List.append_assoc]
  exact (lineAt_stands h2 hp' x hx).right

theorem instrsAt_stands {is odd l r} (h : InstrsAt is odd l r) : ∀ {pre : List Tok}, (∃ p nl, pre = p ++ [(.newline, nl)]) →
    ∀ i ∈ is, ∀ x ∈ i.basicBlockRefs, StandsIn pre (l ++ r) x.2 := by
  induction h with
  | nil => intro pre _ i hi; cases hi
  | @cons i is o o' l nls l' r h1 h2 h3 h4 ih =>
    intro pre hp j hj x hx
    obtain ⟨nl, nls', rfl⟩ := newlines_cons h2 h3
    rw [List.append_assoc, List.append_assoc]
    rcases List.mem_cons.mp hj with rfl | hj
    · exact instrAt_stands h1 hp x hx
    · exact (ih (ends_newlines h2 h3) j hj x hx).right.right

/-- The labels in a block. -/
def blockLabels (b : BasicBlock) : List (Spanned Str) := b.label.toList ++ b.instructions.flatMap (·.basicBlockRefs)

theorem blockAt_stands {b odd l r} (h : BlockAt b odd l r) (hp : ∃ p nl, pre = p ++ [(.newline, nl)]) : ∀ x ∈ blockLabels b, StandsIn pre (l ++ r) x.2 := by
  obtain ⟨label, comma, nls, is, hn, hn', hi, rfl, hb1, hb2, hb3⟩ := h
  intro x hx
  unfold blockLabels at hx
  rw [hb1] at hx
  rw [List.append_assoc, List.append_assoc]
  rcases List.mem_append.mp hx with hx | hx
  · simp at hx
    subst hx
    obtain ⟨p, nl, rfl⟩ := hp
    obtain ⟨nl', nls', rfl⟩ := newlines_cons hn hn'
    refine ⟨[], x.1, _, rfl, ?_⟩
    rw [List.append_nil]
    exact around_label
  · obtain ⟨i, hi', hx⟩ := List.mem_flatMap.mp hx
    exact (instrsAt_stands hi (ends_newlines hn hn') i hi' x hx).right.right

/-- The tokens end with the end of a line. -/
def EndsLineAt (l : List Tok) : Prop := ∃ p nl, l = p ++ [(.newline, nl)]

theorem EndsLineAt.append (h : EndsLineAt r) : EndsLineAt (l ++ r) := by
  obtain ⟨p, nl, rfl⟩ := h
  exact ⟨l ++ p, nl, by simp⟩

theorem instrsAt_ends {is odd l r} (h : InstrsAt is odd l r) : l = [] ∨ EndsLineAt l := by
  induction h with
  | nil => exact .inl rfl
  | cons _ h2 h3 _ ih =>
    right
    rcases ih with rfl | ih
    · rw [List.append_nil]
      exact ends_newlines h2 h3
    · exact ih.append

theorem blockAt_ends {b odd l r} (h : BlockAt b odd l r) : EndsLineAt l := by
  obtain ⟨label, comma, nls, is, hn, hn', hi, rfl, _⟩ := h
  rcases instrsAt_ends hi with rfl | h
  · rw [List.append_nil]
    exact ends_newlines hn hn'
  · exact h.append

theorem blocksAt_stands {bs odd l r} (h : BlocksAt bs odd l r) : ∀ {pre : List Tok}, EndsLineAt pre → ∀ b ∈ bs, ∀ x ∈ blockLabels b, StandsIn pre (l ++ r) x.2 := by
  induction h with
  | nil => intro pre _ b hb; cases hb
  | cons h1 _ ih =>
    intro pre hp b hb x hx
    rw [List.append_assoc]
    rcases List.mem_cons.mp hb with rfl | hb
    · exact blockAt_stands h1 hp x hx
    · exact (ih (blockAt_ends h1).append b hb x hx).right

theorem allBlocksAt_stands {bs odd l r} (h : AllBlocksAt bs odd l r) (hp : EndsLineAt pre) : ∀ b ∈ bs, ∀ x ∈ blockLabels b, StandsIn pre (l ++ r) x.2 := by
  cases h with
  | labelled h => exact blocksAt_stands h hp
  | unlabelled h1 h2 =>
    intro b hb x hx
    obtain ⟨f, la, h1, _, _, h4, _, _⟩ := h1
    rw [List.append_assoc]
    rcases List.mem_cons.mp hb with rfl | hb
    · unfold blockLabels at hx
      rw [h4] at hx
      obtain ⟨i, hi, hx⟩ := List.mem_flatMap.mp (by simpa using hx : x ∈ b.instructions.flatMap (·.basicBlockRefs))
      exact instrsAt_stands h1 hp i hi x hx
    · refine (blocksAt_stands h2 ?_ b hb x hx).right
      rcases instrsAt_ends h1 with rfl | h
      · rwa [List.append_nil]
      · exact h.append

theorem bodyAt_stands {b odd l r} (h : BodyAt b odd l r) : ∀ c ∈ b.basicBlocks, ∀ x ∈ blockLabels c, StandsIn pre (l ++ r) x.2 := by
  obtain ⟨nls, bl, hn, hn', hb, rfl⟩ := h
  intro c hc x hx
  have := (allBlocksAt_stands hb (pre := pre ++ [(.punct '{', b.openingBracket)] ++ nls) (ends_newlines hn hn') c hc x hx).right.right
  simpa using this

theorem readAt_stands {k s b odd l r} (h : ReadAt (.funcDef k s b) odd l r) : ∀ c ∈ b.basicBlocks, ∀ x ∈ blockLabels c, StandsIn pre (l ++ r) x.2 := by
  obtain ⟨nls, body, nls', h1, h2, h3, rfl, h4, h5⟩ := h
  intro c hc x hx
  rw [List.append_assoc, List.append_assoc]
  refine StandsIn.right ?_
  cases h2 with
  | @funcDef _ _ sl _ _ bl _ hs hb =>
    have := (bodyAt_stands hb (pre := pre ++ nls ++ ((Token.define, k) :: sl)) c hc x hx).right
    simpa using this
  | plain hn _ => exact absurd rfl (hn _ _ _)

theorem layout_stands {ss o gs whole l} (h : Layout ss o gs whole l) : ∀ {pre : List Tok} {k s b}, .funcDef k s b ∈ ss →
    ∀ c ∈ b.basicBlocks, ∀ x ∈ blockLabels c, StandsIn pre l x.2 := by
  induction h with
  | done => intro pre k s b hm; cases hm
  | lost => intro pre k s b hm; cases hm
  | stmt h1 _ ih =>
    intro pre k s b hm c hc x hx
    rcases List.mem_cons.mp hm with rfl | hm
    · exact readAt_stands h1 c hc x hx
    · exact (ih hm c hc x hx).right
  | skip h0 h1 _ ih =>
    intro pre k s b hm c hc x hx
    refine StandsIn.right ?_
    rcases List.mem_cons.mp hm with rfl | hm
    · exact readAt_stands h1 c hc x hx
    · exact (ih hm c hc x hx).right

theorem docOccs_stands {ss : List Statement} {o : SymbolOccurrence} : ∀ {i}, o ∈ docOccs i ss → o.symbolKind = .label →
    ∃ k s b, .funcDef k s b ∈ ss ∧ ∃ c ∈ b.basicBlocks, ∃ x ∈ blockLabels c, x = (o.name, o.span) := by
  induction ss with
  | nil => intro i h; cases h
  | cons y ss ih =>
    intro i h hk
    unfold docOccs at h
    rcases List.mem_append.mp h with h | h
    · cases y with
      | funcDef k s b =>
        refine ⟨k, s, b, List.mem_cons_self, ?_⟩
        rcases List.mem_cons.mp h with rfl | h
        · cases hk
        · unfold funcOccs at h
          rcases List.mem_append.mp h with h | h
          · obtain ⟨_, _, rfl⟩ := List.mem_map.mp h
            cases hk
          · obtain ⟨c, hc, h⟩ := List.mem_flatMap.mp h
            refine ⟨c, hc, ?_⟩
            unfold blockOccs at h
            unfold blockLabels
            rcases List.mem_append.mp h with h | h
            · obtain ⟨x, hx, rfl⟩ := List.mem_map.mp h
              exact ⟨x, List.mem_append.mpr (.inl hx), rfl⟩
            · obtain ⟨j, hj, h⟩ := List.mem_flatMap.mp h
              unfold instrOccs at h
              rcases List.mem_append.mp h with h | h
              · obtain ⟨_, _, rfl⟩ := List.mem_map.mp h
                cases hk
              · obtain ⟨x, hx, rfl⟩ := List.mem_map.mp h
                exact ⟨x, List.mem_append.mpr (.inr (List.mem_flatMap.mpr ⟨j, hj, hx⟩)), rfl⟩
      | globalVar => rw [stmtOccs, List.mem_singleton] at h; subst h; cases hk
      | funcDecl => rw [stmtOccs, List.mem_singleton] at h; subst h; cases hk
      | dbgAnnotation => rw [stmtOccs, List.mem_singleton] at h; subst h; cases hk
      | funcDependencies => cases h
    · obtain ⟨k, s, b, hm, rest⟩ := ih h hk
      exact ⟨k, s, b, List.mem_cons_of_mem _ hm, rest⟩

theorem nodup_split {s a b a' b' : List Tok} {t t' : Tok} (hn : (s.map Prod.snd).Nodup) (h : s = a ++ t :: b) (h' : s = a' ++ t' :: b') (he : t.2 = t'.2) :
    a = a' ∧ b = b' := by
  subst h
  induction a generalizing a' with
  | nil =>
    cases a' with
    | nil => injection h' with _ h'; exact ⟨rfl, h'⟩
    | cons u a' =>
      injection h' with h1 h2
      subst h2
      simp [he] at hn
  | cons u a ih =>
    cases a' with
    | nil =>
      injection h' with h1 h2
      subst h1
      rw [List.cons_append, List.map_cons, List.nodup_cons] at hn
      refine absurd ?_ hn.1
      rw [← he]
      simp
    | cons u' a' =>
      injection h' with h1 h2
      subst h1
      rw [List.cons_append, List.map_cons, List.nodup_cons] at hn
      obtain ⟨rfl, rfl⟩ := ih hn.2 h2
      exact ⟨rfl, rfl⟩

/-- Labels with new names. -/
theorem loose_of {v : Spanned Str → Option Str} {ss o gs whole l} (h : Layout ss o gs whole l) (hn : (l.map Prod.snd).Nodup)
    (hv : ∀ n sp, (.ident n, sp) ∈ l → v (n, sp) ≠ none → ∃ o' ∈ docOccs 0 ss, o'.symbolKind = .label ∧ o'.span = sp) : Loose v [] l := by
  intro a n sp b he hvs
  obtain ⟨o', h1, h2, rfl⟩ := hv n sp (by rw [he]; simp) hvs
  obtain ⟨k, s, body, hm, c, hc, x, hx, rfl⟩ := docOccs_stands h1 h2
  obtain ⟨a', n', b', h3, h4⟩ := layout_stands h (pre := []) hm c hc _ hx
  obtain ⟨rfl, rfl⟩ := nodup_split hn he h3 rfl
  exact h4

theorem around_lab {v : Spanned Str → Option Str} (h : Around a b) : Around (a.map (labelG v).tok) (b.map (labelG v).tok) := by
  have one : ∀ {a' : List Tok} {c : Tok}, (∀ n, c.1 ≠ .ident n) → a.map (labelG v).tok = a' ++ [c] → ∃ a0, a = a0 ++ [c] := by
    intro a' c hc he
    obtain ⟨a0, t, rfl, rfl, h2⟩ := List.map_eq_append_iff.mp he
    obtain ⟨t, s, rfl, h3, h4⟩ := List.map_eq_cons_iff.mp h2
    rw [List.map_eq_nil_iff] at h4
    subst h4
    rw [lab_tok_eq hc] at h3
    subst h3
    exact ⟨a0, rfl⟩
  refine ⟨?_, ?_, ?_, ?_, ?_, ?_⟩
  · obtain ⟨t, b', rfl, h1⟩ := h.next
    exact ⟨_, _, rfl, by rwa [ne_eq, lab_eq (by simp)]⟩
  · intro a' c he
    obtain ⟨a0, rfl⟩ := one (by simp) he
    obtain ⟨x, nl, y, rfl, h2, h3⟩ := h.comma a0 c rfl
    refine ⟨x.map (labelG v).tok, nl, y.map (labelG v).tok, by rw [List.map_append]; rfl, by simpa using h2, ?_⟩
    intro x' c' he'
    obtain ⟨x0, t, rfl, rfl, h4⟩ := List.map_eq_append_iff.mp he'
    obtain ⟨t, s, rfl, h5, h6⟩ := List.map_eq_cons_iff.mp h4
    rw [List.map_eq_nil_iff] at h6
    subst h6
    rw [lab_tok_eq (by simp)] at h5
    subst h5
    exact h3 x0 c' rfl
  · intro a' nl he
    obtain ⟨a0, rfl⟩ := one (by simp) he
    obtain ⟨c, nl', b', rfl⟩ := h.line a0 nl rfl
    exact ⟨c, nl', b'.map (labelG v).tok, rfl⟩
  · intro a' x e he
    obtain ⟨a0, t, rfl, rfl, h2⟩ := List.map_eq_append_iff.mp he
    obtain ⟨t, s, rfl, h3, h4⟩ := List.map_eq_cons_iff.mp h2
    obtain ⟨t', s', rfl, h5, h6⟩ := List.map_eq_cons_iff.mp h4
    rw [List.map_eq_nil_iff] at h6
    subst h6
    rw [lab_tok_eq (by simp [localTok])] at h3
    rw [lab_tok_eq (by simp)] at h5
    subst h3 h5
    exact h.assign a0 x e rfl
  · intro a' g he
    obtain ⟨a0, rfl⟩ := one (by simp [globalTok]) he
    exact h.depends a0 g rfl
  · intro a' g x he
    obtain ⟨a0, t, rfl, rfl, h2⟩ := List.map_eq_append_iff.mp he
    obtain ⟨t, s, rfl, h3, h4⟩ := List.map_eq_cons_iff.mp h2
    obtain ⟨t', s', rfl, h5, h6⟩ := List.map_eq_cons_iff.mp h4
    rw [List.map_eq_nil_iff] at h6
    subst h6
    rw [lab_tok_eq (by simp [globalTok])] at h3
    obtain ⟨m, h5⟩ := lab_is_ident h5
    subst h3 h5
    exact h.on a0 g (m, x.2) rfl

/-- The names can be given back. -/
theorem relabel_of {v : Spanned Str → Option Str} {s : List Tok} (h : Loose v [] s) (hn : (s.map Prod.snd).Nodup) : ∃ w, Relabel v w [] s := by
  let w : Spanned Str → Option Str := fun x => (s.find? fun t => decide (t.2 = x.2)).bind fun t =>
    match t.1 with | .ident n => if v (n, t.2) = none then none else some n | _ => none
  have hw : ∀ {n m sp}, (.ident m, sp) ∈ s → w (n, sp) = if v (m, sp) = none then none else some m := by
    intro n m sp ht
    have hf : s.find? (fun t => decide (t.2 = sp)) = some (.ident m, sp) := by
      obtain ⟨a, b, rfl⟩ := List.append_of_mem ht
      rw [List.find?_append, List.find?_cons_of_pos (by simp)]
      have : a.find? (fun t => decide (t.2 = sp)) = none := by
        rw [List.find?_eq_none]
        intro u hu hd
        rw [decide_eq_true_eq] at hd
        rw [List.map_append, List.nodup_append] at hn
        exact hn.2.2 u.2 (List.mem_map.mpr ⟨u, hu, rfl⟩) sp (by simp) hd
      rw [this]
      rfl
    simp only [w, hf, Option.bind_some]
  refine ⟨w, h, ?_, ?_⟩
  · intro a' n sp b' he hws
    obtain ⟨a, t, rfl, rfl, h2⟩ := List.map_eq_append_iff.mp he
    obtain ⟨t, b, rfl, h3, rfl⟩ := List.map_eq_cons_iff.mp h2
    obtain ⟨m, rfl⟩ := lab_is_ident h3
    refine around_lab (h a m sp b rfl ?_)
    intro hv
    rw [hw (m := m) (by simp), if_pos hv] at hws
    exact hws rfl
  · intro t ht
    obtain ⟨t, sp⟩ := t
    cases t
    case ident n =>
      rw [lab_ident, lab_ident, hw ht]
      cases hv : v (n, sp) <;> simp
    all_goals rfl

/-! ### Any renaming -/

/-- The part of a renaming that is not about identifiers. -/
def Renaming.others (G : Renaming) : Renaming where
  ren t := match t.1 with | .ident _ => none | _ => G.ren t
  f := G.f
  named := by
    rintro ⟨t, sp⟩ v h
    cases t <;> first | exact G.named _ v h | cases h

instance (G : Renaming) : G.others.Words where
  plain := by intro n sp v h; cases h

/-- The part of a renaming that is about identifiers. -/
def Renaming.idents (G : Renaming) : Renaming := labelG fun x => G.ren (.ident x.1, x.2)

variable {G : Renaming}

theorem tok_parts (t : Tok) : G.others.tok (G.idents.tok t) = G.tok t := by
  obtain ⟨t, sp⟩ := t
  cases t
  case ident n =>
    unfold Renaming.idents
    rw [lab_ident]
    unfold Renaming.tok renTok Renaming.others
    simp only
    cases G.ren (.ident n, sp) <;> rfl
  all_goals rfl

theorem name_parts (x : Spanned Str) : G.others.name .ident (G.idents.name .ident x) = G.name .ident x := rfl

theorem name_others {mk : Str → Token} (hmk : ∀ n m, mk n ≠ .ident m) (x : Spanned Str) : G.others.name mk (G.idents.name mk x) = G.name mk x := by
  unfold Renaming.idents
  rw [lab_name hmk]
  unfold Renaming.name Renaming.others
  have := hmk x.1
  cases h : mk x.1 <;> first | exact absurd h (this _) | rfl

theorem names_others {mk : Str → Token} (hmk : ∀ n m, mk n ≠ .ident m) : G.others.name mk ∘ G.idents.name mk = G.name mk :=
  funext fun x => name_others hmk x

theorem instr_parts (i : Instruction) : G.others.instr (G.idents.instr i) = G.instr i := by
  unfold Renaming.instr
  simp only [Option.map_map, List.map_map, names_others (mk := .localName) (by simp), names_others (mk := .debugRef) (by simp)]
  rfl

theorem block_parts (b : BasicBlock) : G.others.block (G.idents.block b) = G.block b := by
  unfold Renaming.block
  simp only [Option.map_map, List.map_map, show G.others.instr ∘ G.idents.instr = G.instr from funext instr_parts]
  rfl

theorem body_parts (b : FuncBody) : G.others.body (G.idents.body b) = G.body b := by
  unfold Renaming.body
  simp only [List.map_map, show G.others.block ∘ G.idents.block = G.block from funext block_parts]
  rfl

theorem sig_parts (s : FuncSignature) : G.others.sig (G.idents.sig s) = G.sig s := by
  unfold Renaming.sig
  simp only [List.map_map, name_others (mk := .globalName) (by simp),
    show G.others.arg ∘ G.idents.arg = G.arg from funext fun a => by
      simp only [Function.comp, Renaming.arg, name_others (mk := .localName) (by simp)]; rfl]
  rfl

theorem stmt_parts (x : Statement) : G.others.stmt (G.idents.stmt x) = G.stmt x := by
  cases x with
  | globalVar n d =>
    simp only [Renaming.stmt, List.map_map, name_others (mk := .globalName) (by simp), show G.others.tok ∘ G.idents.tok = G.tok from funext tok_parts]
  | funcDecl s a d =>
    simp only [Renaming.stmt, Option.map_map, sig_parts, names_others (mk := .debugRef) (by simp)]
    rfl
  | funcDef k s b =>
    simp only [Renaming.stmt, sig_parts, body_parts]
    rfl
  | funcDependencies n ds =>
    simp only [Renaming.stmt, List.map_map, name_others (mk := .globalName) (by simp), names_others (mk := .globalName) (by simp)]
  | dbgAnnotation n d =>
    simp only [Renaming.stmt, List.map_map, name_others (mk := .debugRef) (by simp), show G.others.tok ∘ G.idents.tok = G.tok from funext tok_parts]

theorem parseTokens_layout {ss o gs whole} {n : Nat} {toks : List Tok} (h : Layout ss o gs whole (toks.filter fun t => decide (t.1 ≠ Token.comment))) :
    ∃ es, parseTokens n toks = .ok (if whole then some ss else none, es) ∧ (gs = [] → Complaints es o) := by
  obtain ⟨es, r, gs', h1, h2, h3, h4, h5, h6⟩ := many_docItem_layout (eoi := { start := n, stop := n + 1 }) h
  cases whole with
  | true =>
    obtain ⟨rfl, rfl⟩ := h2 rfl
    exact ⟨es, parseTokens_of_many h1, h6⟩
  | false =>
    obtain ⟨hr, rfl⟩ := h3 rfl
    obtain ⟨e, h7, h8⟩ := parseTokens_lost h1 hr
    exact ⟨_, h7, by simp⟩

/-- Apart from how far the parser had got, the errors are the same. -/
def SameErrors (es es' : List (LErr Token)) : Prop := es.map (fun e => { e with rem := 0 }) = es'.map fun e => { e with rem := 0 }

theorem complaints_renamed {es es1 : List (LErr Token)} {o : List Span} (h : Complaints es o) (h1 : Complaints es1 o) :
    SameErrors (es1.map G.others.err) (es.map G.err) := by
  have key : ∀ (H : Renaming) (es : List (LErr Token)), (es.map H.err).map (fun e => { e with rem := 0 }) = (es.map fun e => { e with rem := 0 }).map H.err := by
    intro H es
    rw [List.map_map, List.map_map]
    rfl
  unfold SameErrors
  rw [key, key, h, h1, List.map_map, List.map_map]
  rfl

theorem filter_renamed (toks : List Tok) : (toks.map G.tok).filter (fun t => decide (t.1 ≠ Token.comment)) = G.toks (toks.filter fun t => decide (t.1 ≠ Token.comment)) := by
  rw [List.filter_map]
  unfold Renaming.toks
  congr 1
  refine List.filter_congr ?_
  intro t _
  simp only [Function.comp, ne_eq, tok_unnamed (G := G) (t := t) (c := .comment) rfl]

/-- The statements after a renaming in which all identifiers are labels. -/
theorem parseTokens_renamed {n n' : Nat} {toks : List Tok} {so es} (h : parseTokens n toks = .ok (so, es)) (hn : (toks.map Prod.snd).Nodup)
    (heoi : G.span { start := n, stop := n + 1 } = { start := n', stop := n' + 1 })
    (hlab : ∀ m sp v, (.ident m, sp) ∈ toks → G.ren (.ident m, sp) = some v → ∃ o' ∈ docOccs 0 (so.getD []), o'.symbolKind = .label ∧ o'.span = sp) :
    (∃ es', parseTokens n' (toks.map G.tok) = .ok (so.map (List.map G.stmt), es') ∧
      ((∃ ss o, Layout ss o [] true (toks.filter fun t => decide (t.1 ≠ Token.comment))) → SameErrors es' (es.map G.err))) ∧
    ∀ k s b, .funcDef k s b ∈ so.getD [] → Kept (fun x => G.ren (.ident x.1, x.2)) b.basicBlocks := by
  obtain ⟨ss, o, gs, whole, hs⟩ := layout_total _ (toks.filter fun t => decide (t.1 ≠ Token.comment)) (Nat.le_refl _)
  obtain ⟨es0, h0, hc0⟩ := parseTokens_layout (n := n) hs
  rw [h] at h0
  cases h0
  have hn' : ((toks.filter fun t => decide (t.1 ≠ Token.comment)).map Prod.snd).Nodup := hn.sublist (List.filter_sublist.map _)
  have hloose : Loose (fun x => G.ren (.ident x.1, x.2)) [] (toks.filter fun t => decide (t.1 ≠ Token.comment)) := by
    refine loose_of hs hn' ?_
    intro m sp hm hv
    obtain ⟨v, hv⟩ := Option.ne_none_iff_exists'.mp hv
    obtain ⟨o', h1, h2⟩ := hlab m sp v (List.mem_filter.mp hm).1 hv
    cases whole with
    | true => exact ⟨o', h1, h2⟩
    | false => cases h1
  obtain ⟨w, hw⟩ := relabel_of hloose hn'
  obtain ⟨hk, hl⟩ := layout_lab hs hw (by simp)
  have hl' : Layout (ss.map G.idents.stmt) o (gs.map (List.map G.idents.tok)) whole ((toks.map G.idents.tok).filter fun t => decide (t.1 ≠ Token.comment)) := by
    rw [filter_renamed]
    exact hl
  obtain ⟨es1, h1, hc1⟩ := parseTokens_layout (n := n) hl'
  have hread : (∃ ss o, Layout ss o [] true (toks.filter fun t => decide (t.1 ≠ Token.comment))) → gs = [] := by
    rintro ⟨_, _, h⟩
    exact (layout_unique hs rfl h).2.2.1
  constructor
  · have e0 : toks.map G.tok = (toks.map G.idents.tok).map G.others.tok := by
      rw [List.map_map]
      exact (List.map_congr_left fun t _ => tok_parts t).symm
    have e1 : G.stmt = G.others.stmt ∘ G.idents.stmt := (funext stmt_parts).symm
    rw [e0, e1]
    unfold parseTokens parseRecovery at h1 ⊢
    rw [filter_renamed, ← heoi, show G.span { start := n, stop := n + 1 } = G.others.span { start := n, stop := n + 1 } from rfl]
    rcases rel_cases (parser_equi (G := G.others) { start := n, stop := n + 1 } ((toks.map G.idents.tok).filter fun t => decide (t.1 ≠ Token.comment)))
      with ⟨es2, a, al, r, es2', a', al', h2, h3, h4, h5, h6⟩ | ⟨es2, e, es2', e', h2, h3, h4, h5⟩ | ⟨h2, h3⟩
    · rw [h2] at h1
      rw [h3]
      simp only [Outcome.ok.injEq, Prod.mk.injEq] at h1
      obtain ⟨h1, rfl⟩ := h1
      refine ⟨es2', ?_, fun hr => ?_⟩
      · cases whole with
        | true =>
          simp only [if_true, Option.some.injEq, Option.map_some] at h1 ⊢
          rw [h5, h1, List.map_map]
        | false => cases h1
      · rw [h4]
        exact complaints_renamed (hc0 (hread hr)) (hc1 (by simp [hread hr]))
    · rw [h2] at h1
      rw [h3]
      simp only [Outcome.ok.injEq, Prod.mk.injEq] at h1
      obtain ⟨h1, rfl⟩ := h1
      refine ⟨es2' ++ [e'], ?_, fun hr => ?_⟩
      · cases whole with
        | true => cases h1
        | false => rfl
      · exfalso
        obtain ⟨_, _, hr⟩ := hr
        obtain ⟨_, _, _, rfl⟩ := layout_unique hs rfl hr
        cases h1
    · rw [h2] at h1
      cases h1
  · intro k s b hm
    cases whole with
    | true => exact hk k s b hm
    | false => cases hm

end
end HyperIR
