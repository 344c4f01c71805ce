import Verif.Model.Debug
import Verif.Spec.DebugText
import Verif.Proofs.Iter
import Verif.Props.Report

/-!
# C92: `Debug` output

`/repo/src/data_api.rs` l.25, 115, 150, 284, 314, 345, 386, 537 and the `derive(Debug)` of the nine rules.
-/

namespace GaussQuad.Props
open Spec FloatOps

theorem words_append_cons {d : Char} (hd : isPunct d = true) (u v : List Char) : words (u ++ d :: v) = words u ++ words v := by
  rw [words, List.splitOnP_append_cons _ _ hd, List.filter_append]; rfl

theorem words_nil : words [] = [] := by rfl

theorem words_cons {d : Char} (hd : isPunct d = true) (v : List Char) : words (d :: v) = words v := by
  simpa [words_nil] using words_append_cons hd [] v

theorem words_end {d : Char} (hd : isPunct d = true) (u : List Char) : words (u ++ [d]) = words u := by
  rw [words_append_cons hd, words_nil, List.append_nil]

theorem words_of_word {t : List Char} (h : IsWord t) : words t = [t] := by
  have : ∀ t : List Char, (∀ c ∈ t, isPunct c = false) → t.splitOnP isPunct = [t] := fun t => by
    induction t with
    | nil => intro _; rfl
    | cons c t ih =>
      intro h
      rw [List.splitOnP_cons_eq_if_modifyHead, h c (by simp), ih fun x hx => h x (by simp [hx])]; rfl
  rw [words, this t h.2]
  have := h.1
  cases t <;> simp_all

theorem pad_words (t : List Char) :
    (∃ h r r', (pad false t).splitOnP isPunct = h :: r' ∧ t.splitOnP isPunct = h :: r ∧ r'.filter (fun w => !w.isEmpty) = r.filter (fun w => !w.isEmpty)) ∧
    words (pad true t) = words t := by
  induction t with
  | nil => exact ⟨⟨[], [], [], rfl, rfl, rfl⟩, rfl⟩
  | cons c t ih =>
    obtain ⟨⟨h, r, r', e1, e2, e3⟩, e4⟩ := ih
    have key : ∃ h r r', (c :: pad (c == '\n') t).splitOnP isPunct = h :: r' ∧ (c :: t).splitOnP isPunct = h :: r ∧ r'.filter (fun w => !w.isEmpty) = r.filter (fun w => !w.isEmpty) := by
      by_cases hc : c = '\n'
      · subst hc
        exact ⟨[], _, _, by rw [List.splitOnP_cons_eq_if_modifyHead, if_pos (by rfl), beq_self_eq_true], by rw [List.splitOnP_cons_eq_if_modifyHead, if_pos (by rfl)], e4⟩
      · rw [show (c == '\n') = false by simpa using hc, List.splitOnP_cons_eq_if_modifyHead, List.splitOnP_cons_eq_if_modifyHead]
        by_cases hp : isPunct c = true
        · rw [if_pos hp, if_pos hp]
          exact ⟨[], _, _, rfl, rfl, by rw [e1, e2, List.filter_cons, List.filter_cons, e3]⟩
        · rw [if_neg hp, if_neg hp, e1, e2]
          exact ⟨c :: h, r, r', rfl, rfl, e3⟩
    refine ⟨key, ?_⟩
    have e : words (pad true (c :: t)) = words (c :: pad (c == '\n') t) := by
      have hs : isPunct ' ' = true := by rfl
      show words (' ' :: ' ' :: ' ' :: ' ' :: c :: pad (c == '\n') t) = _
      rw [words_cons hs, words_cons hs, words_cons hs, words_cons hs]
    obtain ⟨h, r, r', k1, k2, k3⟩ := key
    rw [e, words, words, k1, k2, List.filter_cons, List.filter_cons, k3]

theorem pad_append (u v : List Char) : ∀ b, pad b (u ++ v) = pad b u ++ pad (if u = [] then b else u.getLast? == some '\n') v := by
  induction u with
  | nil => intro b; simp [pad]
  | cons c u ih =>
    intro b
    simp only [List.cons_append, pad, ih, List.append_assoc, List.cons_append, reduceCtorEq, if_false]
    congr 3
    by_cases hu : u = []
    · subst hu; simp
    · rw [if_neg hu, List.getLast?_cons_of_ne_nil hu]

theorem prettyItem_words (t : List Char) : words (prettyItem t) = words t := by
  rw [prettyItem, (pad_words _).2, words_append_cons (by rfl), words_cons (by rfl), words_nil, List.append_nil]

/-- a pretty item ends with a line break -/
theorem prettyItem_end (t : List Char) : ∃ s, prettyItem t = s ++ ['\n'] := by
  refine ⟨pad true (t ++ [',']), ?_⟩
  rw [prettyItem, show t ++ [',', '\n'] = (t ++ [',']) ++ ['\n'] by simp, pad_append]
  simp [pad]

theorem pretty_words (ts : List (List Char)) (v : List Char) : words ((ts.map prettyItem).flatten ++ v) = ts.flatMap words ++ words v := by
  induction ts with
  | nil => rfl
  | cons t ts ih =>
    obtain ⟨s, hs⟩ := prettyItem_end t
    have h2 := prettyItem_words t
    rw [hs, words_end (by rfl)] at h2
    rw [List.map_cons, List.flatten_cons, hs, List.append_assoc, List.append_assoc, List.singleton_append, words_append_cons (by rfl), ih, h2, List.flatMap_cons, List.append_assoc]

theorem commaSep_words (ts : List (List Char)) {d : Char} (hd : isPunct d = true) (v : List Char) : words (commaSep ts ++ d :: v) = ts.flatMap words ++ words v := by
  match ts with
  | [] => exact words_cons hd v
  | [t] => simp [commaSep, words_append_cons hd]
  | t :: s :: r =>
    rw [commaSep, List.append_assoc, List.cons_append, List.cons_append, words_append_cons (by rfl), words_cons (by rfl), commaSep_words (s :: r) hd, List.flatMap_cons (x := t), List.append_assoc]

theorem debugStruct_words {name : List Char} (hn : IsWord name) (fields : List (List Char × Dbg)) (hf : ∀ p ∈ fields, IsWord p.1) (o : FmtOpts) :
    words (debugStruct name fields o) = name :: fields.flatMap fun p => p.1 :: words (p.2 o) := by
  have e : ∀ l : List (List Char × Dbg), (∀ p ∈ l, IsWord p.1) → (l.map fun p => p.1 ++ (": ".toList ++ p.2 o)).flatMap words = l.flatMap fun p => p.1 :: words (p.2 o) := fun l hl => by
    induction l with
    | nil => rfl
    | cons p l ih =>
      rw [List.map_cons, List.flatMap_cons, List.flatMap_cons, ih fun q hq => hl q (by simp [hq])]
      congr 1
      show words (p.1 ++ ':' :: ' ' :: p.2 o) = _
      rw [words_append_cons (by rfl), words_cons (by rfl), words_of_word (hl p (by simp))]; rfl
  rw [debugStruct]
  split
  · show words (name ++ ' ' :: '{' :: '\n' :: ((fields.map fun p => prettyItem (p.1 ++ (": ".toList ++ p.2 o))).flatten ++ "}".toList)) = _
    rw [words_append_cons (by rfl), words_cons (by rfl), words_cons (by rfl), words_of_word hn, show (fields.map fun p => prettyItem (p.1 ++ (": ".toList ++ p.2 o))) = (fields.map fun p => p.1 ++ (": ".toList ++ p.2 o)).map prettyItem by rw [List.map_map]; rfl,
      pretty_words, e _ hf, show words "}".toList = [] by rfl, List.append_nil]; rfl
  · show words (name ++ ' ' :: '{' :: ' ' :: (_ ++ ' ' :: ['}'])) = _
    rw [words_append_cons (by rfl), words_cons (by rfl), words_cons (by rfl), words_of_word hn, commaSep_words _ (by rfl), e _ hf, show words ['}'] = [] by rfl, List.append_nil]; rfl

theorem flatMap_words_map (l : List Dbg) (o : FmtOpts) : (l.map fun d => d o).flatMap words = l.flatMap fun d => words (d o) := by rw [List.flatMap_map]

theorem debugTuple_words (name : List Char) (fields : List Dbg) (o : FmtOpts) : words (debugTuple name fields o) = words name ++ fields.flatMap fun d => words (d o) := by
  rw [debugTuple]
  split
  · show words (name ++ '(' :: '\n' :: ((fields.map fun d => prettyItem (d o)).flatten ++ ")".toList)) = _
    rw [words_append_cons (by rfl), words_cons (by rfl), show (fields.map fun d => prettyItem (d o)) = (fields.map fun d => d o).map prettyItem by rw [List.map_map]; rfl,
      pretty_words, flatMap_words_map, show words ")".toList = [] by rfl, List.append_nil]
  · show words (name ++ '(' :: (_ ++ ')' :: [])) = _
    rw [words_append_cons (by rfl), commaSep_words _ (by rfl), flatMap_words_map, words_nil, List.append_nil]

theorem debugList_words (items : List Dbg) (o : FmtOpts) : words (debugList items o) = items.flatMap fun d => words (d o) := by
  rw [debugList]
  split
  · show words ('[' :: '\n' :: ((items.map fun d => prettyItem (d o)).flatten ++ "]".toList)) = _
    rw [words_cons (by rfl), words_cons (by rfl), show (items.map fun d => prettyItem (d o)) = (items.map fun d => d o).map prettyItem by rw [List.map_map]; rfl,
      pretty_words, flatMap_words_map, show words "]".toList = [] by rfl, List.append_nil]
  · show words ('[' :: (_ ++ ']' :: [])) = _
    rw [words_cons (by rfl), commaSep_words _ (by rfl), flatMap_words_map, words_nil, List.append_nil]

section
variable {F ε : Type} [FloatOps F]

/-- numbers are printed as single words (true without `width`; padding would add blanks) -/
def PlainNumbers (std : StdDebug F ε) (o : FmtOpts) : Prop := (∀ x, IsWord (std.float x o)) ∧ ∀ n, IsWord (std.uint n o)

theorem debugPairs_words {std : StdDebug F ε} {o : FmtOpts} (h : PlainNumbers std o) (l : List (F × F)) : words (debugPairs std l o) = pairWords (fun x => std.float x o) l := by
  rw [debugPairs, debugList_words, List.flatMap_map, pairWords]
  congr 1; funext p
  rw [debugPair, debugTuple_words]
  simp [words_nil, words_of_word (h.1 _)]

theorem param_words {std : StdDebug F ε} {o : FmtOpts} (h : PlainNumbers std o) (x : FiniteAboveNegOne F) : words (x.debug std o) = ["FiniteAboveNegOneF64".toList, std.float x.val o] := by
  rw [FiniteAboveNegOne.debug, debugTuple_words, words_of_word ⟨by decide, by decide⟩]
  simp [words_of_word (h.1 _)]

theorem structName_word (k : Kind) : IsWord k.structName.toList := by cases k <;> exact ⟨by decide, by decide⟩

/-- the words of the `Debug` output of a rule: the name of the struct, the names of its fields and the numbers in order -/
def ruleWords (float : F → List Char) (uint : Nat → List Char) : AnyRule F → List (List Char)
  | .midpoint r => ["Midpoint".toList, "degree".toList, uint r.degree]
  | .trapezoid r => ["Trapezoid".toList, "degree".toList, uint r.degree]
  | .simpson r => ["Simpson".toList, "degree".toList, uint r.degree]
  | .legendre r => "GaussLegendre".toList :: "node_weight_pairs".toList :: pairWords float r.nodeWeightPairs
  | .chebyshevFirst r => "GaussChebyshevFirstKind".toList :: "node_weight_pairs".toList :: pairWords float r.nodeWeightPairs
  | .chebyshevSecond r => "GaussChebyshevSecondKind".toList :: "node_weight_pairs".toList :: pairWords float r.nodeWeightPairs
  | .hermite r => "GaussHermite".toList :: "node_weight_pairs".toList :: pairWords float r.nodeWeightPairs
  | .jacobi r => "GaussJacobi".toList :: "node_weight_pairs".toList :: (pairWords float r.nodeWeightPairs ++
      ["alpha".toList, "FiniteAboveNegOneF64".toList, float r.alpha.val, "beta".toList, "FiniteAboveNegOneF64".toList, float r.beta.val])
  | .laguerre r => "GaussLaguerre".toList :: "node_weight_pairs".toList :: (pairWords float r.nodeWeightPairs ++
      ["alpha".toList, "FiniteAboveNegOneF64".toList, float r.alpha.val])

/-- C92: what `{:?}` and `{:#?}` of a rule show, for all options of the placeholder -/
theorem C92_words {std : StdDebug F ε} {o : FmtOpts} (h : PlainNumbers std o) (R : AnyRule F) :
    words (R.debug std o) = ruleWords (fun x => std.float x o) (fun n => std.uint n o) R := by
  have hp : IsWord "node_weight_pairs".toList := ⟨by decide, by decide⟩
  have hd : IsWord "degree".toList := ⟨by decide, by decide⟩
  have ha : IsWord "alpha".toList := ⟨by decide, by decide⟩
  have hb : IsWord "beta".toList := ⟨by decide, by decide⟩
  have one : ∀ (name f : List Char) (d : Dbg) (ws : List (List Char)), IsWord name → IsWord f → words (d o) = ws → words (debugStruct name [(f, d)] o) = name :: f :: ws := by
    intro name f d ws hn hf hw
    rw [debugStruct_words hn _ (by simpa using hf), List.flatMap_singleton, hw]
  have hl : ∀ l, words (debugPairs std l o) = pairWords (fun x => std.float x o) l := debugPairs_words h
  cases R with
  | midpoint r => exact one _ _ _ _ (structName_word .midpoint) hd (words_of_word (h.2 _))
  | trapezoid r => exact one _ _ _ _ (structName_word .trapezoid) hd (words_of_word (h.2 _))
  | simpson r => exact one _ _ _ _ (structName_word .simpson) hd (words_of_word (h.2 _))
  | legendre r => exact one _ _ _ _ (structName_word .legendre) hp (hl _)
  | chebyshevFirst r => exact one _ _ _ _ (structName_word .chebyshevFirst) hp (hl _)
  | chebyshevSecond r => exact one _ _ _ _ (structName_word .chebyshevSecond) hp (hl _)
  | hermite r => exact one _ _ _ _ (structName_word .hermite) hp (hl _)
  | jacobi r =>
    refine (debugStruct_words (structName_word .jacobi) [(_, debugPairs std r.nodeWeightPairs), (_, r.alpha.debug std), (_, r.beta.debug std)] ?_ o).trans ?_
    · simp only [List.mem_cons, List.not_mem_nil, or_false, forall_eq, forall_eq_or_imp]; exact ⟨hp, ha, hb⟩
    · simp only [List.flatMap_cons, List.flatMap_nil, hl, param_words h, List.append_nil]; rfl
  | laguerre r =>
    refine (debugStruct_words (structName_word .laguerre) [(_, debugPairs std r.nodeWeightPairs), (_, r.alpha.debug std)] ?_ o).trans ?_
    · simp only [List.mem_cons, List.not_mem_nil, or_false, forall_eq, forall_eq_or_imp]; exact ⟨hp, ha⟩
    · simp only [List.flatMap_cons, List.flatMap_nil, hl, param_words h, List.append_nil]; rfl

theorem pairWords_inj {float : F → List Char} : ∀ {l l' : List (F × F)}, (∀ x ∈ l.flatMap fun p => [p.1, p.2], ∀ y, float x = float y → x = y) → pairWords float l = pairWords float l' → l = l'
  | [], [], _, _ => rfl
  | [], q :: l', _, h => by simp [pairWords] at h
  | p :: l, [], _, h => by simp [pairWords] at h
  | p :: l, q :: l', hinj, h => by
    simp only [pairWords, List.flatMap_cons, List.cons_append, List.nil_append, List.cons.injEq] at h
    rw [pairWords_inj (l := l) (l' := l') (fun x hx => hinj x (by simp only [List.flatMap_cons, List.mem_append]; exact .inr hx)) h.2.2,
      Prod.ext (hinj _ (by simp) _ h.1) (hinj _ (by simp) _ h.2.1)]

theorem NodeRule.ext_degree : ∀ {r r' : NodeRule}, r.degree = r'.degree → r = r'
  | ⟨_, _, _⟩, ⟨_, _, _⟩, rfl => rfl

theorem ruleWords_inj {float : F → List Char} {uint : Nat → List Char} (hu : Function.Injective uint) {R R' : AnyRule F} (hf : ∀ x ∈ numbers R, ∀ y, float x = float y → x = y)
    (h : ruleWords float uint R = ruleWords float uint R') : R = R' := by
  have hk : R.kind = R'.kind := by
    have hh : R.kind.structName.toList = R'.kind.structName.toList := by
      have : ∀ R : AnyRule F, (ruleWords float uint R).head? = some R.kind.structName.toList := fun R => by cases R <;> rfl
      have := (this R).symm.trans ((congrArg _ h).trans (this R'))
      exact Option.some.inj this
    generalize R.kind = k at hh ⊢
    generalize R'.kind = k' at hh ⊢
    revert hh; cases k <;> cases k' <;> decide
  cases R <;> cases R' <;> first | cases hk | skip
  case midpoint.midpoint r r' => exact congrArg _ (NodeRule.ext_degree (hu (by simpa [ruleWords] using h)))
  case trapezoid.trapezoid r r' => exact congrArg _ (NodeRule.ext_degree (hu (by simpa [ruleWords] using h)))
  case simpson.simpson r r' => exact congrArg _ (NodeRule.ext_degree (hu (by simpa [ruleWords] using h)))
  case legendre.legendre r r' => exact congrArg (fun l => AnyRule.legendre ⟨l⟩) (pairWords_inj hf (by simpa [ruleWords] using h))
  case chebyshevFirst.chebyshevFirst r r' => exact congrArg (fun l => AnyRule.chebyshevFirst ⟨l⟩) (pairWords_inj hf (by simpa [ruleWords] using h))
  case chebyshevSecond.chebyshevSecond r r' => exact congrArg (fun l => AnyRule.chebyshevSecond ⟨l⟩) (pairWords_inj hf (by simpa [ruleWords] using h))
  case hermite.hermite r r' => exact congrArg (fun l => AnyRule.hermite ⟨l⟩) (pairWords_inj hf (by simpa [ruleWords] using h))
  case jacobi.jacobi r r' =>
    obtain ⟨⟨l⟩, ⟨a⟩, ⟨b⟩⟩ := r
    obtain ⟨⟨l'⟩, ⟨a'⟩, ⟨b'⟩⟩ := r'
    simp only [ruleWords, List.cons.injEq, true_and] at h
    obtain ⟨h1, h2⟩ := List.append_inj' h rfl
    simp only [List.cons.injEq, true_and, and_true] at h2
    have h0 : l = l' := pairWords_inj (fun x hx => hf x (List.mem_append_left _ hx)) h1
    rw [h0, hf _ (by simp [numbers]) _ h2.1, hf _ (by simp [numbers]) _ h2.2]
  case laguerre.laguerre r r' =>
    obtain ⟨⟨l⟩, ⟨a⟩⟩ := r
    obtain ⟨⟨l'⟩, ⟨a'⟩⟩ := r'
    simp only [ruleWords, List.cons.injEq, true_and] at h
    obtain ⟨h1, h2⟩ := List.append_inj' h rfl
    simp only [List.cons.injEq, true_and, and_true] at h2
    have h0 : l = l' := pairWords_inj (fun x hx => hf x (List.mem_append_left _ hx)) h1
    rw [h0, hf _ (by simp [numbers]) _ h2]

/-- C92: two rules, of whatever types, with the same `Debug` output are the same, if no other number is printed like one stored in the first rule (the library's
shortest representation guarantees this unless a NaN is stored).  The placeholders may differ, for example in the `#` flag, as long as the numbers are printed in the same way. -/
theorem C92_determines {std : StdDebug F ε} {o o' : FmtOpts} (h : PlainNumbers std o) (h' : PlainNumbers std o')
    (hu : Function.Injective fun n => std.uint n o) (ho : ∀ x, std.float x o = std.float x o') (ho' : ∀ n, std.uint n o = std.uint n o') {R R' : AnyRule F}
    (hf : ∀ x ∈ numbers R, ∀ y, std.float x o = std.float y o → x = y) (e : words (R.debug std o) = words (R'.debug std o')) : R = R' := by
  rw [C92_words h, C92_words h', ← funext ho, ← funext ho'] at e
  exact ruleWords_inj hu hf e

theorem commaSep_eq : ∀ ts : List (List Char), commaSep ts = List.intercalate ", ".toList ts
  | [] => rfl
  | [t] => by simp [commaSep, List.intercalate]
  | t :: s :: r => by
    rw [commaSep, commaSep_eq (s :: r)]
    simp [List.intercalate, List.intersperse]

theorem pad_false_line {t : List Char} (h : ∀ c ∈ t, c ≠ '\n') (v : List Char) : pad false (t ++ v) = t ++ pad false v := by
  induction t with
  | nil => rfl
  | cons c t ih =>
    rw [List.cons_append, pad, show (c == '\n') = false by simpa using h c (by simp), ih fun x hx => h x (by simp [hx])]
    rfl

theorem pad_true_line {t : List Char} (hne : t ≠ []) (h : ∀ c ∈ t, c ≠ '\n') (v : List Char) : pad true (t ++ v) = ' ' :: ' ' :: ' ' :: ' ' :: (t ++ pad false v) := by
  cases t with
  | nil => exact absurd rfl hne
  | cons c t =>
    rw [List.cons_append, pad, show (c == '\n') = false by simpa using h c (by simp), pad_false_line fun x hx => h x (by simp [hx])]
    rfl


/-- the exact text of `{:?}`, in pieces -/
def piecesCompact (float : F → List Char) (uint : Nat → List Char) : AnyRule F → List (List Char)
  | .midpoint r => ["Midpoint { degree: ".toList, uint r.degree, " }".toList]
  | .trapezoid r => ["Trapezoid { degree: ".toList, uint r.degree, " }".toList]
  | .simpson r => ["Simpson { degree: ".toList, uint r.degree, " }".toList]
  | .legendre r => ["GaussLegendre { node_weight_pairs: ".toList, pairsCompact float r.nodeWeightPairs, " }".toList]
  | .chebyshevFirst r => ["GaussChebyshevFirstKind { node_weight_pairs: ".toList, pairsCompact float r.nodeWeightPairs, " }".toList]
  | .chebyshevSecond r => ["GaussChebyshevSecondKind { node_weight_pairs: ".toList, pairsCompact float r.nodeWeightPairs, " }".toList]
  | .hermite r => ["GaussHermite { node_weight_pairs: ".toList, pairsCompact float r.nodeWeightPairs, " }".toList]
  | .jacobi r => ["GaussJacobi { node_weight_pairs: ".toList, pairsCompact float r.nodeWeightPairs, ", alpha: FiniteAboveNegOneF64(".toList, float r.alpha.val, "), beta: FiniteAboveNegOneF64(".toList, float r.beta.val, ") }".toList]
  | .laguerre r => ["GaussLaguerre { node_weight_pairs: ".toList, pairsCompact float r.nodeWeightPairs, ", alpha: FiniteAboveNegOneF64(".toList, float r.alpha.val, ") }".toList]

/-- the exact text of `{:#?}`, in pieces -/
def piecesPretty (float : F → List Char) (uint : Nat → List Char) : AnyRule F → List (List Char)
  | .midpoint r => ["Midpoint {\n    degree: ".toList, uint r.degree, ",\n}".toList]
  | .trapezoid r => ["Trapezoid {\n    degree: ".toList, uint r.degree, ",\n}".toList]
  | .simpson r => ["Simpson {\n    degree: ".toList, uint r.degree, ",\n}".toList]
  | .legendre r => ["GaussLegendre {\n    node_weight_pairs: ".toList, pairsPretty float r.nodeWeightPairs, ",\n}".toList]
  | .chebyshevFirst r => ["GaussChebyshevFirstKind {\n    node_weight_pairs: ".toList, pairsPretty float r.nodeWeightPairs, ",\n}".toList]
  | .chebyshevSecond r => ["GaussChebyshevSecondKind {\n    node_weight_pairs: ".toList, pairsPretty float r.nodeWeightPairs, ",\n}".toList]
  | .hermite r => ["GaussHermite {\n    node_weight_pairs: ".toList, pairsPretty float r.nodeWeightPairs, ",\n}".toList]
  | .jacobi r => ["GaussJacobi {\n    node_weight_pairs: ".toList, pairsPretty float r.nodeWeightPairs, ",\n    alpha: FiniteAboveNegOneF64(\n        ".toList, float r.alpha.val, ",\n    ),\n    beta: FiniteAboveNegOneF64(\n        ".toList, float r.beta.val, ",\n    ),\n}".toList]
  | .laguerre r => ["GaussLaguerre {\n    node_weight_pairs: ".toList, pairsPretty float r.nodeWeightPairs, ",\n    alpha: FiniteAboveNegOneF64(\n        ".toList, float r.alpha.val, ",\n    ),\n}".toList]

theorem pairs_compact (std : StdDebug F ε) {o : FmtOpts} (ho : o.alternate = false) (l : List (F × F)) : debugPairs std l o = pairsCompact (fun x => std.float x o) l := by
  rw [debugPairs, debugList, if_neg (by simp [ho]), pairsCompact, commaSep_eq, List.map_map]
  congr 4
  funext p
  simp [debugPair, debugTuple, ho, commaSep]

/-- C92: the text of `{:?}` -/
theorem C92_compact (std : StdDebug F ε) {o : FmtOpts} (ho : o.alternate = false) (R : AnyRule F) : R.debug std o = (piecesCompact (fun x => std.float x o) (fun n => std.uint n o) R).flatten := by
  cases R <;> simp [AnyRule.debug, AnyRule.debugFields, debugStruct, ho, commaSep, piecesCompact, pairs_compact std ho, AnyRule.kind, Kind.structName, FiniteAboveNegOne.debug, debugTuple]

theorem item_end (t v : List Char) : pad true (prettyItem t ++ v) = pad true (prettyItem t) ++ pad true v := by
  obtain ⟨s, hs⟩ := prettyItem_end t
  rw [pad_append, hs]
  simp

theorem items_pad (ts : List (List Char)) (v : List Char) : pad true ((ts.map prettyItem).flatten ++ v) = (ts.map fun t => pad true (prettyItem t)).flatten ++ pad true v := by
  induction ts with
  | nil => rfl
  | cons t ts ih => rw [List.map_cons, List.flatten_cons, List.append_assoc, item_end, ih, List.map_cons, List.flatten_cons, List.append_assoc]

theorem word_line {t : List Char} (h : IsWord t) : ∀ c ∈ t, c ≠ '\n' := fun c hc e => by
  have := h.2 c hc; rw [e] at this; exact absurd this (by decide)

theorem pair_pretty {std : StdDebug F ε} {o : FmtOpts} (ho : o.alternate = true) (h : PlainNumbers std o) (p : F × F) :
    pad true (prettyItem (debugPair std p o)) = "        (\n            ".toList ++ std.float p.1 o ++ ",\n            ".toList ++ std.float p.2 o ++ ",\n        ),\n".toList := by
  have a1 := fun v => pad_true_line (h.1 p.1).1 (word_line (h.1 p.1)) v
  have a2 := fun v => pad_true_line (h.1 p.2).1 (word_line (h.1 p.2)) v
  have b1 := fun v => pad_false_line (word_line (h.1 p.1)) v
  have b2 := fun v => pad_false_line (word_line (h.1 p.2)) v
  simp [debugPair, debugTuple, ho, prettyItem, pad, a1, a2, b1, b2]

theorem field_pretty {std : StdDebug F ε} {o : FmtOpts} (ho : o.alternate = true) (h : PlainNumbers std o) (l : List (F × F)) {f : List Char} (hf : IsWord f) :
    prettyItem (f ++ (": ".toList ++ debugPairs std l o)) = "    ".toList ++ f ++ ": ".toList ++ pairsPretty (fun x => std.float x o) l ++ ",\n".toList := by
  have b1 := fun v => pad_true_line hf.1 (word_line hf) v
  cases l with
  | nil => simp [prettyItem, b1, debugPairs, debugList, pad, commaSep, pairsPretty]
  | cons p l =>
    rw [debugPairs, debugList, if_pos ⟨ho, by simp⟩]
    have e : (((p :: l).map (debugPair std)).map fun d => prettyItem (d o)) = ((p :: l).map fun q => debugPair std q o).map prettyItem := by rw [List.map_map, List.map_map]; rfl
    rw [e, prettyItem, List.append_assoc, b1]
    simp only [List.append_assoc]
    show _ :: _ :: _ :: _ :: (f ++ pad false (':' :: ' ' :: '[' :: '\n' :: ((((p :: l).map fun q => debugPair std q o).map prettyItem).flatten ++ ("]".toList ++ [',', '\n'])))) = _
    have e2 : ∀ v, pad false (':' :: ' ' :: '[' :: '\n' :: v) = ':' :: ' ' :: '[' :: '\n' :: pad true v := fun v => by simp [pad]
    rw [e2, items_pad, List.map_map]
    have e3 : ((fun t => pad true (prettyItem t)) ∘ fun q => debugPair std q o) = fun p => "        (\n            ".toList ++ std.float p.1 o ++ ",\n            ".toList ++ std.float p.2 o ++ ",\n        ),\n".toList :=
      funext fun q => pair_pretty ho h q
    rw [e3, ← List.flatMap_def]
    simp [pairsPretty, pad]

theorem param_pretty {std : StdDebug F ε} {o : FmtOpts} (ho : o.alternate = true) (h : PlainNumbers std o) (x : FiniteAboveNegOne F) {f : List Char} (hf : IsWord f) :
    prettyItem (f ++ (": ".toList ++ x.debug std o)) = "    ".toList ++ f ++ ": FiniteAboveNegOneF64(\n        ".toList ++ std.float x.val o ++ ",\n    ),\n".toList := by
  have b1 := fun v => pad_true_line hf.1 (word_line hf) v
  have a1 := fun v => pad_true_line (h.1 x.val).1 (word_line (h.1 x.val)) v
  have b2 := fun v => pad_false_line (word_line (h.1 x.val)) v
  simp [prettyItem, b1, FiniteAboveNegOne.debug, debugTuple, ho, pad, a1, b2]

/-- C92: the text of `{:#?}` -/
theorem C92_pretty {std : StdDebug F ε} {o : FmtOpts} (ho : o.alternate = true) (h : PlainNumbers std o) (R : AnyRule F) :
    R.debug std o = (piecesPretty (fun x => std.float x o) (fun n => std.uint n o) R).flatten := by
  have hd : ∀ n, prettyItem ("degree".toList ++ (": ".toList ++ std.uint n o)) = "    degree: ".toList ++ std.uint n o ++ ",\n".toList := fun n => by
    have b2 := fun v => pad_false_line (word_line (h.2 n)) v
    simp [prettyItem, pad, b2]
  have hp := fun l => field_pretty ho h l (f := "node_weight_pairs".toList) ⟨by decide, by decide⟩
  have ha := fun x => param_pretty ho h x (f := "alpha".toList) ⟨by decide, by decide⟩
  have hb := fun x => param_pretty ho h x (f := "beta".toList) ⟨by decide, by decide⟩
  have s1 : ∀ (name f : List Char) (d : Dbg) (t : List Char), prettyItem (f ++ (": ".toList ++ d o)) = t → debugStruct name [(f, d)] o = name ++ (" {\n".toList ++ (t ++ "}".toList)) := by
    intro name f d t ht
    rw [debugStruct, if_pos ho, List.map_singleton, List.flatten_singleton, ht]
  cases R with
  | midpoint r => exact (s1 _ _ _ _ (hd _)).trans (by simp [piecesPretty, AnyRule.kind, Kind.structName])
  | trapezoid r => exact (s1 _ _ _ _ (hd _)).trans (by simp [piecesPretty, AnyRule.kind, Kind.structName])
  | simpson r => exact (s1 _ _ _ _ (hd _)).trans (by simp [piecesPretty, AnyRule.kind, Kind.structName])
  | legendre r => exact (s1 _ _ _ _ (hp _)).trans (by simp [piecesPretty, AnyRule.kind, Kind.structName])
  | chebyshevFirst r => exact (s1 _ _ _ _ (hp _)).trans (by simp [piecesPretty, AnyRule.kind, Kind.structName])
  | chebyshevSecond r => exact (s1 _ _ _ _ (hp _)).trans (by simp [piecesPretty, AnyRule.kind, Kind.structName])
  | hermite r => exact (s1 _ _ _ _ (hp _)).trans (by simp [piecesPretty, AnyRule.kind, Kind.structName])
  | jacobi r =>
    have : ∀ (name f g e : List Char) (d d' d'' : Dbg) (t t' t'' : List Char), prettyItem (f ++ (": ".toList ++ d o)) = t → prettyItem (g ++ (": ".toList ++ d' o)) = t' →
        prettyItem (e ++ (": ".toList ++ d'' o)) = t'' → debugStruct name [(f, d), (g, d'), (e, d'')] o = name ++ (" {\n".toList ++ (t ++ (t' ++ (t'' ++ "}".toList)))) := by
      intro name f g e d d' d'' t t' t'' h1 h2 h3
      rw [debugStruct, if_pos ho, List.map_cons, List.map_cons, List.map_singleton, h1, h2, h3]
      simp
    exact (this _ _ _ _ _ _ _ _ _ _ (hp _) (ha _) (hb _)).trans (by simp [piecesPretty, AnyRule.kind, Kind.structName])
  | laguerre r =>
    have : ∀ (name f g : List Char) (d d' : Dbg) (t t' : List Char), prettyItem (f ++ (": ".toList ++ d o)) = t → prettyItem (g ++ (": ".toList ++ d' o)) = t' →
        debugStruct name [(f, d), (g, d')] o = name ++ (" {\n".toList ++ (t ++ (t' ++ "}".toList))) := by
      intro name f g d d' t t' h1 h2
      rw [debugStruct, if_pos ho, List.map_cons, List.map_singleton, h1, h2]
      simp
    exact (this _ _ _ _ _ _ _ (hp _) (ha _)).trans (by simp [piecesPretty, AnyRule.kind, Kind.structName])

/-- names of the rule structs -/
def typeName : Kind → String
  | .midpoint => "Midpoint"
  | .trapezoid => "Trapezoid"
  | .simpson => "Simpson"
  | .legendre => "GaussLegendre"
  | .chebyshevFirst => "GaussChebyshevFirstKind"
  | .chebyshevSecond => "GaussChebyshevSecondKind"
  | .jacobi => "GaussJacobi"
  | .hermite => "GaussHermite"
  | .laguerre => "GaussLaguerre"

/-- endings of the names of the iterator structs -/
def iterTypeEnding : IterKind → String
  | .nodes => "Nodes"
  | .weights => "Weights"
  | .iter => "Iter"
  | .intoIter => "IntoIter"

/-- the words printed between the name of an iterator struct and its items -/
def iterWords : IterKind → List (List Char)
  | .nodes => ["Map".toList, "iter".toList, "Iter".toList]
  | .weights => ["Map".toList, "iter".toList, "Iter".toList]
  | .iter => ["Iter".toList]
  | .intoIter => ["IntoIter".toList]

/-- C92: after any history of operations on one of the four iterators of a node-weight rule with the pairs `l`, its `Debug` output shows the pairs that are left in the deque of
C10.  The iterators over the nodes and over the weights show complete pairs. -/
theorem C92_iterators {std : StdDebug F ε} {o : FmtOpts} (h : PlainNumbers std o) (k : Kind) (ik : IterKind) (l : List (F × F)) (ops : List IterOp) :
    words (debugIter std k ik ((SliceIter.ofList l).run ops).2 o) = (typeName k ++ iterTypeEnding ik).toList :: (iterWords ik ++ pairWords (fun x => std.float x o) (dequeRun l ops).2) := by
  have hn : typeName k ++ iterTypeEnding ik = k.structName ++ ik.suffix := by cases k <;> cases ik <;> rfl
  rw [hn]
  have hs := (SliceIter.run_sim ops (SliceIter.ofList l) (SliceIter.wf_ofList l)).2.1
  rw [SliceIter.asSlice_ofList] at hs
  have hw : words (k.structName.toList ++ ik.suffix.toList) = [(k.structName ++ ik.suffix).toList] := by
    rw [String.toList_append]
    refine words_of_word ⟨by simp [(structName_word k).1], fun c hc => ?_⟩
    rcases List.mem_append.1 hc with hc | hc
    · exact (structName_word k).2 c hc
    · clear hs
      have : ∀ ik : IterKind, ∀ c ∈ ik.suffix.toList, isPunct c = false := fun ik => by cases ik <;> decide
      exact this ik c hc
  have w1 : words "Iter".toList = ["Iter".toList] := words_of_word ⟨by decide, by decide⟩
  have w2 : words "IntoIter".toList = ["IntoIter".toList] := words_of_word ⟨by decide, by decide⟩
  have hi : ∀ name : List Char, words (SliceIter.debug std name ((SliceIter.ofList l).run ops).2 o) = words name ++ pairWords (fun x => std.float x o) (dequeRun l ops).2 := fun name => by
    rw [SliceIter.debug, debugTuple_words, List.flatMap_singleton, debugPairs_words h, hs]
  have hm : ∀ d : Dbg, words (debugMap d o) = "Map".toList :: "iter".toList :: words (d o) := fun d => by
    rw [debugMap, debugStruct_words ⟨by decide, by decide⟩ _ (by simp only [List.mem_singleton, forall_eq]; exact ⟨by decide, by decide⟩), List.flatMap_singleton]
  cases ik
  · exact (debugTuple_words _ _ _).trans (by rw [hw, List.flatMap_singleton, hm, hi, w1]; rfl)
  · exact (debugTuple_words _ _ _).trans (by rw [hw, List.flatMap_singleton, hm, hi, w1]; rfl)
  · exact (debugTuple_words _ _ _).trans (by rw [hw, List.flatMap_singleton, hi, w1]; rfl)
  · exact (debugTuple_words _ _ _).trans (by rw [hw, List.flatMap_singleton, hi, w2]; rfl)

/-- C92: the iterator of a composite rule prints the range `s..e` of the nodes that are left after any history of operations -/
theorem C92_node_iterators {std : StdDebug F ε} {o : FmtOpts} (h : PlainNumbers std o) (k : Kind) (r : NodeRule) (ops : List IterOp) :
    ∃ s e : Nat, words (debugNodeIter std k (r.range.run ops).2 o) = [(typeName k ++ "Iter").toList, "Map".toList, "iter".toList, std.uint s o ++ "..".toList ++ std.uint e o] ∧
      (dequeRun (List.range r.degree) ops).2 = List.range' s (e - s) := by
  have hn : typeName k = k.structName := by cases k <;> rfl
  rw [hn]
  have hs := (RangeIter.run_sim ops r.range).2
  have hr : r.range.items = List.range r.degree := by
    simp [NodeRule.range, RangeIter.ofDegree, RangeIter.items, RangeIter.len, List.range_eq_range']
  rw [hr] at hs
  refine ⟨(r.range.run ops).2.start, (r.range.run ops).2.stop, ?_, hs.symm⟩
  have hw : words (k.structName.toList ++ "Iter".toList) = [(k.structName ++ "Iter").toList] := by
    rw [String.toList_append]
    refine words_of_word ⟨by simp [(structName_word k).1], fun c hc => ?_⟩
    rcases List.mem_append.1 hc with hc | hc
    · exact (structName_word k).2 c hc
    · exact (by decide : ∀ c ∈ "Iter".toList, isPunct c = false) c hc
  have hm : ∀ d : Dbg, words (debugMap d o) = "Map".toList :: "iter".toList :: words (d o) := fun d => by
    rw [debugMap, debugStruct_words ⟨by decide, by decide⟩ _ (by simp only [List.mem_singleton, forall_eq]; exact ⟨by decide, by decide⟩), List.flatMap_singleton]
  have hu : ∀ a b : Nat, words (std.uint a o ++ ("..".toList ++ std.uint b o)) = [std.uint a o ++ "..".toList ++ std.uint b o] := fun a b => by
    rw [words_of_word, List.append_assoc]
    refine ⟨by simp [(h.2 a).1], fun c hc => ?_⟩
    rcases List.mem_append.1 hc with hc | hc
    · exact (h.2 a).2 c hc
    rcases List.mem_append.1 hc with hc | hc
    · exact (by decide : ∀ c ∈ "..".toList, isPunct c = false) c hc
    · exact (h.2 b).2 c hc
  exact (debugTuple_words _ _ _).trans (by rw [hw, List.flatMap_singleton, hm, RangeIter.debug, hu]; rfl)

/-- C92: unlike `Display` (C76), `Debug` of a parameter hands the options of the placeholder on to the number -/
theorem C92_parameter (std : StdDebug F ε) (x : FiniteAboveNegOne F) (o : FmtOpts) (ho : o.alternate = false) (before : String) :
    ((x.debug std).toFmt ⟨o, before⟩).buf = before ++ "FiniteAboveNegOneF64(" ++ String.ofList (std.float x.get o) ++ ")" := by
  simp [Dbg.toFmt, Formatter.writeStr, FiniteAboveNegOne.debug, debugTuple, ho, commaSep, FiniteAboveNegOne.get, String.ext_iff]

/-- C92: the errors -/
theorem C92_errors (std : StdDebug F ε) (e : ε) (i : InfNanNegOneOrLessError) (o : FmtOpts) :
    i.debug o = "InfNanNegOneOrLessError".toList ∧
    words ((ParseFiniteAboveNegOneError.invalidValue i : ParseFiniteAboveNegOneError ε).debug std o) = ["InvalidValue".toList, "InfNanNegOneOrLessError".toList] ∧
    words ((ParseFiniteAboveNegOneError.parseError e).debug std o) = "ParseError".toList :: words (std.parseError e o) := by
  refine ⟨rfl, ?_, ?_⟩
  · exact (debugTuple_words _ _ _).trans (by rw [words_of_word ⟨by decide, by decide⟩, List.flatMap_singleton]; exact congrArg _ (words_of_word (t := "InfNanNegOneOrLessError".toList) ⟨by decide, by decide⟩))
  · exact (debugTuple_words _ _ _).trans (by rw [words_of_word ⟨by decide, by decide⟩, List.flatMap_singleton]; rfl)

/-- C92: the text of `{:#?}` for a parameter, and both texts of the error for a value that is not allowed -/
theorem C92_texts {std : StdDebug F ε} {o : FmtOpts} (h : PlainNumbers std o) (x : FiniteAboveNegOne F) (i : InfNanNegOneOrLessError) :
    (o.alternate = true → x.debug std o = "FiniteAboveNegOneF64(\n    ".toList ++ std.float x.get o ++ ",\n)".toList) ∧
    (o.alternate = true → (ParseFiniteAboveNegOneError.invalidValue i : ParseFiniteAboveNegOneError ε).debug std o =
      "InvalidValue(\n    InfNanNegOneOrLessError,\n)".toList) ∧
    (o.alternate = false → (ParseFiniteAboveNegOneError.invalidValue i : ParseFiniteAboveNegOneError ε).debug std o =
      "InvalidValue(InfNanNegOneOrLessError)".toList) := by
  have a1 := fun v => pad_true_line (h.1 x.val).1 (word_line (h.1 x.val)) v
  refine ⟨fun ho => ?_, fun ho => ?_, fun ho => ?_⟩
  · simp [prettyItem, FiniteAboveNegOne.debug, debugTuple, ho, pad, a1, FiniteAboveNegOne.get]
  · rw [ParseFiniteAboveNegOneError.debug, debugTuple, if_pos ho]
    change "InvalidValue".toList ++ ("(\n".toList ++ (prettyItem "InfNanNegOneOrLessError".toList ++ [] ++ ")".toList)) = _
    decide +kernel
  · rw [ParseFiniteAboveNegOneError.debug, debugTuple, if_neg (by simp [ho])]
    change "InvalidValue".toList ++ ("(".toList ++ ("InfNanNegOneOrLessError".toList ++ ")".toList)) = _
    decide +kernel

end

/-- a library that prints numbers in unary, bit patterns of floats as their value with the sign in front -/
def unary : StdDebug F64 Unit where
  float x _ := (if x.sign then '-' else '+') :: List.replicate x.mag '1'
  uint n _ := '+' :: List.replicate n '1'
  parseError _ _ := []

theorem unary_plain (o : FmtOpts) : PlainNumbers unary o := by
  refine ⟨fun x => ⟨by simp [unary], fun c hc => ?_⟩, fun n => ⟨by simp [unary], fun c hc => ?_⟩⟩
  · simp only [unary, List.mem_cons, List.mem_replicate] at hc
    rcases hc with rfl | ⟨-, rfl⟩
    · cases x.sign <;> rfl
    · rfl
  · simp only [unary, List.mem_cons, List.mem_replicate] at hc
    rcases hc with rfl | ⟨-, rfl⟩ <;> rfl

/-- with it the pretty output of a rule determines the rule from the compact output of another -/
example [Libm] (R R' : AnyRule F64) (e : words (R.debug unary {}) = words (R'.debug unary { alternate := true })) : R = R' :=
  C92_determines (o := {}) (o' := { alternate := true }) (unary_plain _) (unary_plain _) (fun m n h => by simpa [unary] using congrArg List.length h) (fun _ => rfl) (fun _ => rfl)
    (fun x _ y h => by
      obtain ⟨s, m, hm⟩ := x
      obtain ⟨s', m', hm'⟩ := y
      simp only [unary, List.cons.injEq] at h
      have h2 : m = m' := by simpa using congrArg List.length h.2
      subst h2
      have h1 : s = s' := by have := h.1; cases s <;> cases s' <;> simp_all
      rw [h1]) e

set_option maxRecDepth 4000 in
/-- a rule with the two pairs (-0.0, 0.0) and (0.0, 0.0), printed in the pretty form -/
example [Libm] : String.ofList ((AnyRule.hermite ⟨[(F64.zero true, F64.zero false), (F64.zero false, F64.zero false)]⟩ : AnyRule F64).debug unary { alternate := true }) =
    "GaussHermite {\n    node_weight_pairs: [\n        (\n            -,\n            +,\n        ),\n        (\n            +,\n            +,\n        ),\n    ],\n}" := by
  rw [C92_pretty rfl (unary_plain _)]
  decide

example [Libm] : String.ofList ((AnyRule.midpoint ⟨3, by decide, by decide⟩ : AnyRule F64).debug unary {}) = "Midpoint { degree: +111 }" := by
  rw [C92_compact _ rfl]
  decide

/-- `SimpsonIter` of a rule with three nodes after `next()` and `next_back()` -/
example [Libm] : ∃ s e : Nat, words (debugNodeIter unary .simpson ((NodeRule.range ⟨3, by decide, by decide⟩).run [.next, .nextBack]).2 {}) =
    ["SimpsonIter".toList, "Map".toList, "iter".toList, unary.uint s {} ++ "..".toList ++ unary.uint e {}] ∧ [1] = List.range' s (e - s) :=
  C92_node_iterators (unary_plain _) .simpson ⟨3, by decide, by decide⟩ [.next, .nextBack]

/-- the iterator over the nodes after one `next()` shows the second pair -/
example [Libm] : words (debugIter unary .legendre .nodes ((SliceIter.ofList [(F64.zero true, F64.zero false), (F64.zero false, F64.zero false)]).run [.next]).2 {}) =
    ["GaussLegendreNodes".toList, "Map".toList, "iter".toList, "Iter".toList, ['+'], ['+']] := by
  rw [C92_iterators (unary_plain _)]
  decide

/-- the words of a rule, and a parameter -/
example [Libm] : words ((AnyRule.midpoint ⟨3, by decide, by decide⟩ : AnyRule F64).debug unary {}) =
      ruleWords (fun x => unary.float x {}) (fun n => unary.uint n {}) (AnyRule.midpoint ⟨3, by decide, by decide⟩ : AnyRule F64) ∧
    (((⟨F64.zero true⟩ : FiniteAboveNegOne F64).debug unary).toFmt ⟨{}, "alpha = "⟩).buf = "alpha = FiniteAboveNegOneF64(-)" :=
  ⟨C92_words (unary_plain _) _, by rw [C92_parameter unary _ {} rfl]; decide⟩

/-- a parameter in the pretty form -/
example [Libm] : String.ofList ((⟨F64.zero true⟩ : FiniteAboveNegOne F64).debug unary { alternate := true }) = "FiniteAboveNegOneF64(\n    -,\n)" := by
  rw [(C92_texts (unary_plain _) _ ⟨⟩).1 rfl]
  decide

end GaussQuad.Props
