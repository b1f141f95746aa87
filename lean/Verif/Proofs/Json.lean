import Verif.Proofs.Upload
import Verif.Proofs.Base64
import Verif.Proofs.ID

/-! # The JSON form of a trace -/

namespace Appdash

open Spec

/-- The annotation with the key as JSON carries it. -/
def cleanAnn (a : Annotation) : Annotation := { a with key := cleanUTF8 a.key }

mutual
/-- The trace with the keys as JSON carries them. -/
def cleanTree : Tree → Tree
  | .node s ts => .node { s with annotations := s.annotations.map cleanAnn } (cleanTrees ts)
/-- `cleanTree` of every element. -/
def cleanTrees : List Tree → List Tree
  | [] => []
  | t :: ts => cleanTree t :: cleanTrees ts
end

mutual
theorem cleanTree_eq (tr : Tree) (h : UTF8Keys tr) : cleanTree tr = tr := by
  cases tr with
  | node s ts =>
    have h1 : s.annotations.map cleanAnn = s.annotations := by
      have : ∀ l : List Annotation, (∀ a ∈ l, cleanUTF8 a.key = a.key) → l.map cleanAnn = l := by
        intro l
        induction l with
        | nil => intro _; rfl
        | cons a l ih =>
          intro hl
          have ha : cleanAnn a = a := by
            unfold cleanAnn
            rw [hl a (by simp)]
          rw [List.map_cons, ih (fun b hb => hl b (by simp [hb])), ha]
      exact this _ (h s (by simp [Tree.spans]))
    have h2 := cleanTrees_eq ts (fun t ht sp hsp => h sp (by
      simp only [Tree.spans, List.mem_cons]
      exact Or.inr (spansList_mem.2 ⟨t, ht, hsp⟩)))
    simp only [cleanTree, h1, h2]
theorem cleanTrees_eq (ts : List Tree) (h : ∀ t ∈ ts, UTF8Keys t) : cleanTrees ts = ts := by
  cases ts with
  | nil => rfl
  | cons t ts =>
    simp only [cleanTrees, cleanTree_eq t (h t (by simp)), cleanTrees_eq ts (fun t ht => h t (by simp [ht]))]
end

theorem idJson_back (id : ID) : unmarshalJSONID (JVal.toScalar (.ofScalar id.marshalJSON)) = some id := by
  simp [ID.marshalJSON, JVal.ofScalar, JVal.toScalar, unmarshalJSONID, parseJSONString, parseID_toText, Except.toOption]

theorem decodeSpanID_encode (i id : SpanID) : decodeSpanID i (encodeSpanID id) = some id := by
  have f1 : isField b!"Trace" b!"Trace" = true := by decide
  have f2 : isField b!"Trace" b!"Span" = false := by decide
  have f3 : isField b!"Span" b!"Span" = true := by decide
  have f4 : isField b!"Trace" b!"Parent" = false := by decide
  have f5 : isField b!"Span" b!"Parent" = false := by decide
  have f6 : isField b!"Parent" b!"Parent" = true := by decide
  simp only [encodeSpanID, decodeSpanID, decodeSpanIDMembers, f1, f2, f3, f4, f5, f6, if_true, idJson_back,
    Bool.false_eq_true, if_false]

/-- The annotation as it is decoded into a new one. -/
def JAnn.ofAnn (a : Annotation) : JAnn := ⟨a.key, a.value.map fun b => ⟨b, []⟩⟩

mutual
/-- The trace as it is decoded into a new one. -/
def JTrace.ofTree : Tree → JTrace
  | .node s ts => .node s.id ⟨s.annotations.map JAnn.ofAnn, []⟩ (JTrace.ofTrees ts) []
/-- Likewise for lists. -/
def JTrace.ofTrees : List Tree → List JTrace
  | [] => []
  | t :: ts => JTrace.ofTree t :: JTrace.ofTrees ts
end

theorem JAnn.result_ofAnn (a : Annotation) : (JAnn.ofAnn a).result = a := by
  obtain ⟨k, _ | v⟩ := a <;> rfl

mutual
theorem JTrace.result_ofTree (t : Tree) : (JTrace.ofTree t).result = PTree.ofTree t := by
  cases t with
  | node s ts =>
    have : (s.annotations.map JAnn.ofAnn).map JAnn.result = s.annotations := by
      rw [List.map_map]
      exact (List.map_congr_left fun a _ => JAnn.result_ofAnn a).trans (List.map_id _)
    simp only [JTrace.ofTree, JTrace.result, PTree.ofTree, JTrace.results_ofTrees ts, this]
theorem JTrace.results_ofTrees (ts : List Tree) : JTrace.results (JTrace.ofTrees ts) = PTree.ofTrees ts := by
  cases ts with
  | nil => rfl
  | cons t ts => simp only [JTrace.ofTrees, JTrace.results, PTree.ofTrees, JTrace.result_ofTree t, JTrace.results_ofTrees ts]
end

theorem decodeAnnotation_encode (a : Annotation) : decodeAnnotation {} (encodeAnnotation a) = some (JAnn.ofAnn (cleanAnn a)) := by
  have f1 : isField b!"Key" b!"Key" = true := by decide
  have f2 : isField b!"Key" b!"Value" = false := by decide
  have f3 : isField b!"Value" b!"Value" = true := by decide
  obtain ⟨k, v⟩ := a
  cases v with
  | none =>
    simp only [encodeAnnotation, decodeAnnotation, decodeAnnotationMembers, f1, f2, f3, if_true, decodeString,
      decodeBytes, Bool.false_eq_true, if_false, cleanAnn, JAnn.ofAnn, Option.map_none]
  | some v =>
    simp only [encodeAnnotation, decodeAnnotation, decodeAnnotationMembers, f1, f2, f3, if_true, decodeString,
      decodeBytes, Bool.false_eq_true, if_false, cleanAnn, b64_roundtrip, Option.map_some, JAnn.ofAnn]

theorem decodeAnnotations_encode (n : Bool) (l : List Annotation) :
    decodeAnnotations {} (encodeSlice n (l.map encodeAnnotation)) = some ⟨(l.map cleanAnn).map JAnn.ofAnn, []⟩ := by
  have : ∀ l : List Annotation, decodeElems decodeAnnotation {} [] (l.map encodeAnnotation) = some ((l.map cleanAnn).map JAnn.ofAnn, []) := by
    intro l
    induction l with
    | nil => rfl
    | cons a l ih => simp only [List.map_cons, decodeElems, List.headD_nil, decodeAnnotation_encode, List.tail_nil, ih]
  cases n <;> cases l with
  | nil => rfl
  | cons a l =>
    have h := this (a :: l)
    rw [List.map_cons] at h ⊢
    simp only [encodeSlice, decodeAnnotations, decodeSlice, List.append_nil, h]

mutual
theorem decodeTraceInto_encode (nils : SpanID → Bool × Bool) (tr : Tree) :
    decodeTraceInto .nil (encodeTrace nils tr) = some (JTrace.ofTree (cleanTree tr)) := by
  cases tr with
  | node s ts =>
    have f1 : isField b!"ID" b!"ID" = true := by decide
    have f2 : isField b!"ID" b!"Annotations" = false := by decide
    have f3 : isField b!"Annotations" b!"Annotations" = true := by decide
    have f4 : isField b!"ID" b!"Sub" = false := by decide
    have f5 : isField b!"Annotations" b!"Sub" = false := by decide
    have f6 : isField b!"Sub" b!"Sub" = true := by decide
    have h := decodeTraces_encode nils ts
    have hs : decodeSubInto {} (encodeSlice (nils s.id).2 (encodeTraces nils ts)) = some ⟨JTrace.ofTrees (cleanTrees ts), []⟩ := by
      revert h
      generalize (nils s.id).2 = b
      cases ts with
      | nil => intro _; cases b <;> rfl
      | cons t ts =>
        intro h
        simp only [encodeTraces] at h ⊢
        cases b <;> simp only [encodeSlice, decodeSubInto, List.append_nil, h]
    simp only [encodeTrace, decodeTraceInto, JTrace.id, JTrace.annotations, JTrace.sub, decodeTraceMembers, f1, f2, f3, f4, f5, f6, if_true,
      Bool.false_eq_true, if_false, decodeSpanID_encode, decodeAnnotations_encode, hs, cleanTree, JTrace.ofTree]
theorem decodeTraces_encode (nils : SpanID → Bool × Bool) (ts : List Tree) :
    decodeTraceList [] (encodeTraces nils ts) = some (JTrace.ofTrees (cleanTrees ts), []) := by
  cases ts with
  | nil => rfl
  | cons t ts =>
    simp only [encodeTraces, decodeTraceList, List.headD_nil, List.tail_nil, decodeTraceInto_encode nils t, decodeTraces_encode nils ts,
      cleanTrees, JTrace.ofTrees]
end

theorem decodeTrace_encode (nils : SpanID → Bool × Bool) (tr : Tree) :
    decodeTrace (encodeTrace nils tr) = some (PTree.ofTree (cleanTree tr)) := by
  simp only [decodeTrace, decodeTraceInto_encode, Option.map_some, JTrace.result_ofTree]

theorem decode_export (nils : SpanID → Bool × Bool) (tr : Tree) (h : UTF8Keys tr) :
    decodeSub (exportTrace nils tr) = some [PTree.ofTree tr] := by
  simp only [exportTrace, decodeSub, decodeSubInto, List.append_nil, decodeTraceList, List.headD_nil, decodeTraceInto_encode,
    List.tail_nil, Option.map_some, JTrace.results, JTrace.result_ofTree, cleanTree_eq tr h]

theorem decode_link (nils : SpanID → Bool × Bool) (tr : Tree) (h : UTF8Keys tr) :
    decodeTrace (encodeTrace nils tr) = some (PTree.ofTree tr) := by
  rw [decodeTrace_encode, cleanTree_eq tr h]

/-! ## UTF-8 -/

theorem cleanUTF8Aux_ascii : ∀ (n : Nat) (s : Bytes), s.length ≤ n → (∀ c ∈ s, c.toNat < 128) → cleanUTF8Aux n s = s
  | 0, s, h, _ => by cases s <;> simp_all [cleanUTF8Aux]
  | n + 1, [], _, _ => rfl
  | n + 1, a :: r, h, ha => by
    have h1 : utf8Len (a :: r) = 1 := by simp [utf8Len, ha a (by simp)]
    simp only [cleanUTF8Aux, h1, List.take_zero, List.nil_append, List.drop_zero]
    rw [cleanUTF8Aux_ascii n r (by simpa using h) (fun c hc => ha c (by simp [hc]))]

/-- ASCII strings survive. -/
theorem cleanUTF8_ascii (s : Bytes) (h : ∀ c ∈ s, c.toNat < 128) : cleanUTF8 s = s :=
  cleanUTF8Aux_ascii _ s (Nat.le_refl _) h

end Appdash
