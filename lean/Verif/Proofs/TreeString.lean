import Verif.Model.TreeString
import Verif.Spec.TreeString
import Verif.Proofs.ID
import Mathlib.Data.List.Basic

/-!
# The lines of `TreeString`
-/

namespace Appdash
open Spec

theorem hexID_inj {i j : ID} (h : hexID i = hexID j) : i = j := by
  have hv : ∀ i : ID, hexValue (hexID i) = some i.toNat := by
    intro i
    have := (hexLoop_spec 15 i.toNat [] (by have := i.toNat_lt; omega) 0 rfl).1
    simpa [hexID] using this
  have := hv i
  rw [h, hv j, Option.some.injEq] at this
  exact UInt64.toNat_inj.1 this.symm

theorem hexID_lower (i : ID) : ∀ c ∈ hexID i, IsLowerHex c :=
  hexLoop_lower 16 _ _ (by simp) (by have := i.toNat_lt; omega)

theorem hexID_not {i : ID} {c : UInt8} (hc : ¬ IsLowerHex c) : c ∉ hexID i := fun h => hc (hexID_lower i c h)

/-! ## Lines without their line breaks -/

/-- The line of a span below the root. -/
def spanLine' (depth : Nat) (s : Span) : Bytes :=
  124 :: (List.replicate (4 * (depth - 1)) 32 ++ (b!"----+ Span " ++ (hexID s.id.span ++
      (if s.id.parent ≠ 0 then b!" (parent " ++ hexID s.id.parent ++ b!")" else []))))

/-- The line of an annotation. -/
def annotationLine' (depth : Nat) (a : Annotation) : Bytes :=
  (if depth = 0 then b!"| " else b!"|" ++ (treeIndent depth).drop 1 ++ b!" | ") ++ (a.key ++ b!" = " ++ a.valueString)

theorem spanLine_succ (d : Nat) (s : Span) : spanLine (d + 1) s = spanLine' (d + 1) s ++ [10] := by
  simp only [spanLine, spanLine', treeIndent, Nat.add_one_ne_zero, if_false, List.drop_replicate]
  cases d with
  | zero => simp
  | succ d =>
    rw [if_neg (by omega), show 4 * (d + 1 + 1) - 4 = 4 * (d + 1 + 1 - 1) by omega]
    simp

theorem annotationLine_eq (d : Nat) (a : Annotation) : annotationLine d a = annotationLine' d a ++ [10] := by
  simp [annotationLine, annotationLine']

mutual

/-- The lines of a trace below the root. -/
def linesBelow (depth : Nat) : Tree → List Bytes
  | .node s ts => spanLine' depth s :: (s.annotations.map (annotationLine' depth) ++ linesBelowList (depth + 1) ts)

/-- `linesBelow` for a list of traces. -/
def linesBelowList (depth : Nat) : List Tree → List Bytes
  | [] => []
  | t :: ts => linesBelow depth t ++ linesBelowList depth ts

end

/-- The lines as a text. -/
def unlines (l : List Bytes) : Bytes := l.flatMap fun x => x ++ [10]

theorem unlines_append (l m : List Bytes) : unlines (l ++ m) = unlines l ++ unlines m := List.flatMap_append

theorem unlines_annotations (d : Nat) (as : List Annotation) :
    as.flatMap (annotationLine d) = unlines (as.map (annotationLine' d)) := by
  rw [unlines, List.flatMap_map]
  exact List.flatMap_congr fun a _ => annotationLine_eq d a

mutual

theorem treeStringAt_lines (d : Nat) : ∀ t : Tree, treeStringAt (d + 1) t = unlines (linesBelow (d + 1) t)
  | .node s ts => by
    rw [treeStringAt, linesBelow, treeStringList_lines (d + 1) ts, spanLine_succ, unlines_annotations]
    have : unlines (spanLine' (d + 1) s :: (s.annotations.map (annotationLine' (d + 1)) ++ linesBelowList (d + 1 + 1) ts)) =
        spanLine' (d + 1) s ++ [10] ++ unlines (s.annotations.map (annotationLine' (d + 1)) ++ linesBelowList (d + 1 + 1) ts) := by
      rw [unlines, List.flatMap_cons]
      rfl
    rw [this, unlines_append, List.append_assoc]

theorem treeStringList_lines (d : Nat) : ∀ ts : List Tree, treeStringList (d + 1) ts = unlines (linesBelowList (d + 1) ts)
  | [] => rfl
  | t :: ts => by
    rw [treeStringList, linesBelowList, unlines_append, treeStringAt_lines d t, treeStringList_lines d ts]

end

theorem append_sep_inj {c : UInt8} {a b x y : Bytes} (ha : c ∉ a) (hb : c ∉ b) (h : a ++ c :: x = b ++ c :: y) : a = b ∧ x = y := by
  induction a generalizing b with
  | nil =>
    cases b with
    | nil => simpa using h
    | cons e b =>
      simp only [List.nil_append, List.cons_append, List.cons.injEq] at h
      exact absurd (by rw [h.1]; exact List.mem_cons_self) hb
  | cons e a ih =>
    cases b with
    | nil =>
      simp only [List.nil_append, List.cons_append, List.cons.injEq] at h
      exact absurd (by rw [h.1]; exact List.mem_cons_self) ha
    | cons e' b =>
      simp only [List.cons_append, List.cons.injEq] at h
      obtain ⟨h1, h2⟩ := ih (fun m => ha (List.mem_cons_of_mem _ m)) (fun m => hb (List.mem_cons_of_mem _ m)) h.2
      exact ⟨by rw [h.1, h1], h2⟩

theorem unlines_inj {l m : List Bytes} (hl : ∀ x ∈ l, 10 ∉ x) (hm : ∀ x ∈ m, 10 ∉ x) (h : unlines l = unlines m) : l = m := by
  induction l generalizing m with
  | nil =>
    cases m with
    | nil => rfl
    | cons y m => simp [unlines] at h
  | cons x l ih =>
    cases m with
    | nil => simp [unlines] at h
    | cons y m =>
      simp only [unlines, List.flatMap_cons, List.append_assoc, List.singleton_append] at h
      obtain ⟨h1, h2⟩ := append_sep_inj (hl x List.mem_cons_self) (hm y List.mem_cons_self) h
      rw [h1, ih (fun x hx => hl x (List.mem_cons_of_mem _ hx)) (fun x hx => hm x (List.mem_cons_of_mem _ hx)) h2]

/-! ## Kinds of lines -/

theorem spanLine_no_eq (d : Nat) (s : Span) : 61 ∉ spanLine' d s := by
  have h1 : ∀ i : ID, (61 : UInt8) ∉ hexID i := fun i => hexID_not (by unfold IsLowerHex; decide)
  simp only [spanLine', List.mem_cons, List.mem_append, List.mem_replicate, not_or]
  refine ⟨by decide, by simp, by decide, h1 _, ?_⟩
  split
  · simp [h1]
  · simp

theorem spanLine_no_break (d : Nat) (s : Span) : 10 ∉ spanLine' d s := by
  have h1 : ∀ i : ID, (10 : UInt8) ∉ hexID i := fun i => hexID_not (by unfold IsLowerHex; decide)
  simp only [spanLine', List.mem_cons, List.mem_append, List.mem_replicate, not_or]
  refine ⟨by decide, by simp, by decide, h1 _, ?_⟩
  split
  · simp [h1]
  · simp

theorem annotationLine_eq_mem (d : Nat) (a : Annotation) : 61 ∈ annotationLine' d a := by
  simp [annotationLine']

theorem annotationLine_no_break (d : Nat) {a : Annotation} (h1 : 10 ∉ a.key) (h2 : 10 ∉ a.valueString) : 10 ∉ annotationLine' d a := by
  simp only [annotationLine', List.mem_append, not_or]
  refine ⟨?_, ⟨h1, by decide⟩, h2⟩
  split
  · decide
  · simp [treeIndent]

theorem spanLine_inj {d e : Nat} {s u : Span} (hd : 1 ≤ d) (he : 1 ≤ e) (h : spanLine' d s = spanLine' e u) :
    d = e ∧ s.id.span = u.id.span ∧ s.id.parent = u.id.parent := by
  simp only [spanLine', List.cons.injEq, true_and] at h
  have hrep : ∀ (a b : Nat) (x y : Bytes), List.replicate a (32 : UInt8) ++ (45 :: x) = List.replicate b 32 ++ (45 :: y) → a = b ∧ x = y := by
    intro a
    induction a with
    | zero =>
      intro b x y h
      cases b with
      | zero => simpa using h
      | succ b => simp [List.replicate_succ] at h
    | succ a ih =>
      intro b x y h
      cases b with
      | zero => simp [List.replicate_succ] at h
      | succ b =>
        simp only [List.replicate_succ, List.cons_append, List.cons.injEq, true_and] at h
        obtain ⟨h1, h2⟩ := ih b x y h
        exact ⟨by omega, h2⟩
  obtain ⟨h1, h2⟩ := hrep _ _ _ _ h
  have hde : d = e := by omega
  refine ⟨hde, ?_⟩
  have h3 : hexID s.id.span ++ (if s.id.parent ≠ 0 then b!" (parent " ++ hexID s.id.parent ++ b!")" else []) =
      hexID u.id.span ++ (if u.id.parent ≠ 0 then b!" (parent " ++ hexID u.id.parent ++ b!")" else []) := by
    simpa using h2
  have hn : ∀ i : ID, (32 : UInt8) ∉ hexID i := fun i => hexID_not (by unfold IsLowerHex; decide)
  have hp : ∀ i : ID, (41 : UInt8) ∉ hexID i := fun i => hexID_not (by unfold IsLowerHex; decide)
  have hno : ∀ (i j : ID) (x : Bytes), hexID i ≠ hexID j ++ 32 :: x := by
    intro i j x h
    exact hn i (by rw [h]; simp)
  by_cases a : s.id.parent = 0 <;> by_cases b : u.id.parent = 0
  · simp only [a, b, ne_eq, not_true_eq_false, if_false, List.append_nil] at h3
    exact ⟨hexID_inj h3, by rw [a, b]⟩
  · simp only [a, b, ne_eq, not_true_eq_false, not_false_eq_true, if_false, if_true, List.append_nil] at h3
    exact absurd h3 (hno _ _ _)
  · simp only [a, b, ne_eq, not_true_eq_false, not_false_eq_true, if_false, if_true, List.append_nil] at h3
    exact absurd h3.symm (hno _ _ _)
  · simp only [a, b, ne_eq, not_false_eq_true, if_true, List.cons_append, List.append_assoc] at h3
    obtain ⟨h4, h5⟩ := append_sep_inj (hn _) (hn _) h3
    refine ⟨hexID_inj h4, ?_⟩
    simp only [List.nil_append, List.cons.injEq, true_and] at h5
    exact hexID_inj (append_sep_inj (hp _) (hp _) h5).1

theorem annotationLine_inj {d : Nat} {a b : Annotation} (ha : 61 ∉ a.key) (hb : 61 ∉ b.key)
    (h : annotationLine' d a = annotationLine' d b) : shownAnnotation a = shownAnnotation b := by
  simp only [annotationLine', List.append_cancel_left_eq] at h
  have h' : (a.key ++ [32]) ++ 61 :: (32 :: a.valueString) = (b.key ++ [32]) ++ 61 :: (32 :: b.valueString) := by simpa using h
  obtain ⟨h1, h2⟩ := append_sep_inj (by simp [ha]) (by simp [hb]) h'
  rw [List.append_cancel_right_eq] at h1
  rw [List.cons.injEq] at h2
  rw [shownAnnotation, shownAnnotation, h1, h2.2]

theorem annotations_inj (d : Nat) : ∀ {as bs : List Annotation} {r r' : List Bytes}, (∀ a ∈ as, 61 ∉ a.key) → (∀ a ∈ bs, 61 ∉ a.key) →
    (∀ l ∈ r.head?, 61 ∉ l) → (∀ l ∈ r'.head?, 61 ∉ l) →
    as.map (annotationLine' d) ++ r = bs.map (annotationLine' d) ++ r' → as.map shownAnnotation = bs.map shownAnnotation ∧ r = r' := by
  intro as
  induction as with
  | nil =>
    intro bs r r' _ _ hr _ h
    cases bs with
    | nil => exact ⟨rfl, by simpa using h⟩
    | cons b bs =>
      simp only [List.map_nil, List.nil_append, List.map_cons, List.cons_append] at h
      rw [h] at hr
      exact absurd (annotationLine_eq_mem d b) (hr _ rfl)
  | cons a as ih =>
    intro bs r r' ha hb hr hr' h
    cases bs with
    | nil =>
      simp only [List.map_nil, List.nil_append, List.map_cons, List.cons_append] at h
      rw [← h] at hr'
      exact absurd (annotationLine_eq_mem d a) (hr' _ rfl)
    | cons b bs =>
      simp only [List.map_cons, List.cons_append, List.cons.injEq] at h
      obtain ⟨h1, h2⟩ := ih (fun x hx => ha x (List.mem_cons_of_mem _ hx)) (fun x hx => hb x (List.mem_cons_of_mem _ hx)) hr hr' h.2
      rw [List.map_cons, List.map_cons, annotationLine_inj (ha a List.mem_cons_self) (hb b List.mem_cons_self) h.1, h1]
      exact ⟨rfl, h2⟩

/-! ## Trees from their lines -/

/-- What may follow a subtree at this depth: nothing, or the line of a span that is not below it. -/
def Stop (d : Nat) (r : List Bytes) : Prop := ∀ l ∈ r.head?, ∃ e s, 1 ≤ e ∧ e ≤ d ∧ l = spanLine' e s

/-- The keys in the spans contain no equals sign. -/
def KeysClean (l : List Span) : Prop := ∀ sp ∈ l, ∀ a ∈ sp.annotations, 61 ∉ a.key

theorem linesBelowList_head (d : Nat) (hd : 1 ≤ d) (ts : List Tree) (r : List Bytes) (hr : Stop d r) :
    Stop d (linesBelowList d ts ++ r) := by
  cases ts with
  | nil => exact hr
  | cons t ts =>
    cases t with
    | node s us =>
      intro l hl
      simp only [linesBelowList, linesBelow, List.cons_append, List.head?_cons, Option.mem_def, Option.some.injEq] at hl
      exact ⟨d, s, hd, Nat.le_refl _, hl.symm⟩

theorem Stop.no_eq {d : Nat} {r : List Bytes} (h : Stop d r) : ∀ l ∈ r.head?, 61 ∉ l := by
  intro l hl
  obtain ⟨e, s, -, -, rfl⟩ := h l hl
  exact spanLine_no_eq e s

theorem Stop.mono {d e : Nat} {r : List Bytes} (h : Stop d r) (hde : d ≤ e) : Stop e r := by
  intro l hl
  obtain ⟨k, s, h1, h2, h3⟩ := h l hl
  exact ⟨k, s, h1, by omega, h3⟩

mutual

theorem linesBelow_inj (d : Nat) (hd : 1 ≤ d) : ∀ (t u : Tree) (r r' : List Bytes), KeysClean t.spans → KeysClean u.spans → Stop d r →
    Stop d r' → linesBelow d t ++ r = linesBelow d u ++ r' → shownBelow t = shownBelow u ∧ r = r'
  | .node s ts, .node s' us, r, r', ht, hu, hr, hr', h => by
    simp only [linesBelow, List.cons_append, List.cons.injEq, List.append_assoc] at h
    obtain ⟨-, h1, h2⟩ := spanLine_inj hd hd h.1
    have q1 := linesBelowList_head (d + 1) (by omega) ts r (hr.mono (by omega))
    have q2 := linesBelowList_head (d + 1) (by omega) us r' (hr'.mono (by omega))
    obtain ⟨h3, h4⟩ := annotations_inj d (fun a ha => ht s (by simp [Tree.spans]) a ha) (fun a ha => hu s' (by simp [Tree.spans]) a ha)
      q1.no_eq q2.no_eq h.2
    obtain ⟨h5, h6⟩ := linesBelowList_inj d hd ts us r r' (fun sp hsp => ht sp (by simp [Tree.spans, hsp]))
      (fun sp hsp => hu sp (by simp [Tree.spans, hsp])) hr hr' h4
    exact ⟨by rw [shownBelow, shownBelow, h1, h2, h3, h5], h6⟩

theorem linesBelowList_inj (d : Nat) (hd : 1 ≤ d) : ∀ (ts us : List Tree) (r r' : List Bytes), KeysClean (Tree.spansList ts) →
    KeysClean (Tree.spansList us) → Stop d r → Stop d r' → linesBelowList (d + 1) ts ++ r = linesBelowList (d + 1) us ++ r' →
    shownBelowList ts = shownBelowList us ∧ r = r'
  | [], [], r, r', _, _, _, _, h => ⟨rfl, by simpa [linesBelowList] using h⟩
  | [], .node s vs :: us, r, r', _, _, hr, _, h => by
    simp only [linesBelowList, linesBelow, List.nil_append, List.cons_append] at h
    obtain ⟨e, s', h1, h2, h3⟩ := hr _ (by rw [h]; rfl)
    have := (spanLine_inj (by omega) h1 h3).1
    omega
  | .node s vs :: ts, [], r, r', _, _, _, hr', h => by
    simp only [linesBelowList, linesBelow, List.nil_append, List.cons_append] at h
    obtain ⟨e, s', h1, h2, h3⟩ := hr' _ (by rw [← h]; rfl)
    have := (spanLine_inj (by omega) h1 h3).1
    omega
  | t :: ts, u :: us, r, r', ht, hu, hr, hr', h => by
    simp only [linesBelowList, List.append_assoc] at h
    obtain ⟨h1, h2⟩ := linesBelow_inj (d + 1) (by omega) t u _ _ (fun sp hsp => ht sp (by simp [Tree.spansList, hsp]))
      (fun sp hsp => hu sp (by simp [Tree.spansList, hsp])) (linesBelowList_head (d + 1) (by omega) ts r (hr.mono (by omega)))
      (linesBelowList_head (d + 1) (by omega) us r' (hr'.mono (by omega))) h
    obtain ⟨h3, h4⟩ := linesBelowList_inj d hd ts us r r' (fun sp hsp => ht sp (by simp [Tree.spansList, hsp]))
      (fun sp hsp => hu sp (by simp [Tree.spansList, hsp])) hr hr' h2
    exact ⟨by rw [shownBelowList, shownBelowList, h1, h3], h4⟩

end

theorem linesTopList_inj : ∀ (ts us : List Tree), KeysClean (Tree.spansList ts) → KeysClean (Tree.spansList us) →
    linesBelowList 1 ts = linesBelowList 1 us → shownBelowList ts = shownBelowList us
  | [], [], _, _, _ => rfl
  | [], .node s vs :: us, _, _, h => by simp [linesBelowList, linesBelow] at h
  | .node s vs :: ts, [], _, _, h => by simp [linesBelowList, linesBelow] at h
  | t :: ts, u :: us, ht, hu, h => by
    have stop : Stop 1 [] := fun l hl => by cases hl
    simp only [linesBelowList] at h
    have q1 := linesBelowList_head 1 (by omega) ts [] stop
    have q2 := linesBelowList_head 1 (by omega) us [] stop
    rw [List.append_nil] at q1 q2
    obtain ⟨h1, h2⟩ := linesBelow_inj 1 (by omega) t u _ _ (fun sp hsp => ht sp (by simp [Tree.spansList, hsp]))
      (fun sp hsp => hu sp (by simp [Tree.spansList, hsp])) q1 q2 h
    have h3 := linesTopList_inj ts us (fun sp hsp => ht sp (by simp [Tree.spansList, hsp]))
      (fun sp hsp => hu sp (by simp [Tree.spansList, hsp])) h2
    rw [shownBelowList, shownBelowList, h1, h3]

mutual

theorem linesBelow_no_break (d : Nat) : ∀ t : Tree, OneLineAnnotations t → ∀ l ∈ linesBelow d t, 10 ∉ l
  | .node s ts => by
    intro h l hl
    simp only [linesBelow, List.mem_cons, List.mem_append, List.mem_map] at hl
    rcases hl with rfl | ⟨a, ha, rfl⟩ | hl
    · exact spanLine_no_break d s
    · have := h s (by simp [Tree.spans]) a ha
      exact annotationLine_no_break d this.1 this.2.2
    · exact linesBelowList_no_break (d + 1) ts (fun sp hsp => h sp (by simp [Tree.spans, hsp])) l hl

theorem linesBelowList_no_break (d : Nat) : ∀ ts : List Tree,
    (∀ sp ∈ Tree.spansList ts, ∀ a ∈ sp.annotations, 10 ∉ a.key ∧ 61 ∉ a.key ∧ 10 ∉ a.valueString) → ∀ l ∈ linesBelowList d ts, 10 ∉ l
  | [] => by simp [linesBelowList]
  | t :: ts => by
    intro h l hl
    rcases List.mem_append.1 hl with hl | hl
    · exact linesBelow_no_break d t (fun sp hsp => h sp (by simp [Tree.spansList, hsp])) l hl
    · exact linesBelowList_no_break d ts (fun sp hsp => h sp (by simp [Tree.spansList, hsp])) l hl

end

/-- The lines of a trace. -/
def linesTop : Tree → List Bytes
  | .node s ts => (b!"+ Trace " ++ hexID s.id.trace) :: (s.annotations.map (annotationLine' 0) ++ linesBelowList 1 ts)

theorem treeString_lines : ∀ t : Tree, treeString t = unlines (linesTop t)
  | .node s ts => by
    have : unlines (linesTop (.node s ts)) =
        b!"+ Trace " ++ hexID s.id.trace ++ [10] ++ unlines (s.annotations.map (annotationLine' 0) ++ linesBelowList 1 ts) := by
      rw [unlines, linesTop, List.flatMap_cons]
      rfl
    rw [treeString, treeStringAt, this, unlines_append, unlines_annotations, treeStringList_lines, spanLine, if_pos rfl]
    simp only [List.append_assoc]

theorem linesTop_no_break : ∀ t : Tree, OneLineAnnotations t → ∀ l ∈ linesTop t, 10 ∉ l
  | .node s ts => by
    intro h l hl
    simp only [linesTop, List.mem_cons, List.mem_append, List.mem_map] at hl
    rcases hl with rfl | ⟨a, ha, rfl⟩ | hl
    · have : (10 : UInt8) ∉ hexID s.id.trace := hexID_not (by unfold IsLowerHex; decide)
      simp [this]
    · have := h s (by simp [Tree.spans]) a ha
      exact annotationLine_no_break 0 this.1 this.2.2
    · exact linesBelowList_no_break 1 ts (fun sp hsp => h sp (by simp [Tree.spans, hsp])) l hl

theorem treeString_inj {t u : Tree} (ht : OneLineAnnotations t) (hu : OneLineAnnotations u) (h : treeString t = treeString u) :
    shown t = shown u := by
  rw [treeString_lines, treeString_lines] at h
  have h := unlines_inj (linesTop_no_break t ht) (linesTop_no_break u hu) h
  cases t with
  | node s ts =>
    cases u with
    | node s' us =>
      simp only [linesTop, List.cons.injEq, List.append_cancel_left_eq] at h
      have stop : ∀ d, Stop d [] := fun d l hl => by cases hl
      have q1 := linesBelowList_head 1 (by omega) ts [] (stop 1)
      have q2 := linesBelowList_head 1 (by omega) us [] (stop 1)
      rw [List.append_nil] at q1 q2
      obtain ⟨h3, h4⟩ := annotations_inj 0 (fun a ha => (ht s (by simp [Tree.spans]) a ha).2.1)
        (fun a ha => (hu s' (by simp [Tree.spans]) a ha).2.1) q1.no_eq q2.no_eq h.2
      have h5 := linesTopList_inj ts us (fun sp hsp a ha => (ht sp (by simp [Tree.spans, hsp]) a ha).2.1)
        (fun sp hsp a ha => (hu sp (by simp [Tree.spans, hsp]) a ha).2.1) h4
      rw [shown, shown, hexID_inj h.1, h3, h5]

mutual

theorem treeStringAt_shown (d : Nat) : ∀ t : Tree, treeStringAt (d + 1) (shownBelow t) = treeStringAt (d + 1) t
  | .node s ts => by
    have ha : (s.annotations.map shownAnnotation).flatMap (annotationLine (d + 1)) = s.annotations.flatMap (annotationLine (d + 1)) := by
      rw [List.flatMap_map]; rfl
    rw [shownBelow, treeStringAt, treeStringAt, treeStringList_shown (d + 1) ts, ha]
    rfl

theorem treeStringList_shown (d : Nat) : ∀ ts : List Tree, treeStringList (d + 1) (shownBelowList ts) = treeStringList (d + 1) ts
  | [] => rfl
  | t :: ts => by rw [shownBelowList, treeStringList, treeStringList, treeStringAt_shown d t, treeStringList_shown d ts]

end

theorem treeString_shown : ∀ t : Tree, treeString (shown t) = treeString t
  | .node s ts => by
    have ha : (s.annotations.map shownAnnotation).flatMap (annotationLine 0) = s.annotations.flatMap (annotationLine 0) := by
      rw [List.flatMap_map]; rfl
    rw [treeString, treeString, shown, treeStringAt, treeStringAt, treeStringList_shown 0 ts, ha]
    rfl

mutual

theorem shownBelow_values {τ : ID} : ∀ {t u : Tree}, (∀ sp ∈ t.spans, sp.id.trace = τ) → (∀ sp ∈ u.spans, sp.id.trace = τ) →
    shownBelow t = shownBelow u → withShownValues t = withShownValues u
  | .node s ts, .node s' us, ht, hu, h => by
    simp only [shownBelow, Tree.node.injEq, Span.mk.injEq, SpanID.mk.injEq, true_and] at h
    obtain ⟨⟨⟨h1, h2⟩, h3⟩, h4⟩ := h
    have h5 := shownBelowList_values (τ := τ) (fun sp hsp => ht sp (by simp [Tree.spans, hsp]))
      (fun sp hsp => hu sp (by simp [Tree.spans, hsp])) h4
    have e1 := ht s (by simp [Tree.spans])
    have e2 := hu s' (by simp [Tree.spans])
    have : s.id = s'.id := by
      cases hs : s.id; cases hs' : s'.id
      simp_all
    rw [withShownValues, withShownValues, h3, h5, this]

theorem shownBelowList_values {τ : ID} : ∀ {ts us : List Tree}, (∀ sp ∈ Tree.spansList ts, sp.id.trace = τ) →
    (∀ sp ∈ Tree.spansList us, sp.id.trace = τ) → shownBelowList ts = shownBelowList us → withShownValuesList ts = withShownValuesList us
  | [], [], _, _, _ => rfl
  | [], _ :: _, _, _, h => by simp [shownBelowList] at h
  | _ :: _, [], _, _, h => by simp [shownBelowList] at h
  | t :: ts, u :: us, ht, hu, h => by
    simp only [shownBelowList, List.cons.injEq] at h
    rw [withShownValuesList, withShownValuesList,
      shownBelow_values (fun sp hsp => ht sp (by simp [Tree.spansList, hsp])) (fun sp hsp => hu sp (by simp [Tree.spansList, hsp])) h.1,
      shownBelowList_values (fun sp hsp => ht sp (by simp [Tree.spansList, hsp])) (fun sp hsp => hu sp (by simp [Tree.spansList, hsp])) h.2]

end

end Appdash
