import Verif.Model.CommonPrefix
import Verif.Model.Pattern
/-! Model of the suffix-array matcher: /repo/src/matcher/suffix_array/{impls,interface,mod}.rs.
References into the table are modelled as in `Verif.Model.Trie`. -/
namespace Verif

mutual
/-- `SuffixTable`, /repo/src/matcher/suffix_array/impls.rs:19-23 -/
structure SuffixTable where
  literalEntries : List LiteralE
  parserEntries : List ParserE
/-- `LiteralE`, /repo/src/matcher/suffix_array/impls.rs:206-211 -/
structure LiteralE where
  pattern : Option Pattern
  literal : Bytes
  child : Option SuffixTable
/-- `ParserE`, /repo/src/matcher/suffix_array/impls.rs:126-131 -/
structure ParserE where
  pattern : Option Pattern
  parser : Parser
  child : Option SuffixTable
end

/-- `LiteralE::new`, /repo/src/matcher/suffix_array/impls.rs:214-220 -/
def LiteralE.new (literal : Bytes) : LiteralE := { literal, pattern := none, child := none }

/-- `ParserE::new`, /repo/src/matcher/suffix_array/impls.rs:144-150 -/
def ParserE.new (parser : Parser) : ParserE := { pattern := none, parser, child := none }

namespace SuffixTable

/-- `SuffixTable::new` / `default`, /repo/src/matcher/suffix_array/impls.rs:97-109 -/
def new : SuffixTable := { literalEntries := [], parserEntries := [] }

/-- `longest_common_prefix_between_consecutive_entries`, /repo/src/matcher/suffix_array/impls.rs:26-39 -/
def lcpBetweenConsecutive (t : SuffixTable) (value : Bytes) (pos : Nat) : Option LiteralE :=
  let firstOpt := t.literalEntries[pos]?
  let secondOpt := t.literalEntries[pos + 1]?
  match firstOpt with
  | none => secondOpt
  | some first =>
    match secondOpt with
    | none => firstOpt
    | some second =>
      if commonPrefixLen first.literal value ≥ commonPrefixLen second.literal value then firstOpt else secondOpt

/-- `longest_common_prefix_around_pos`, /repo/src/matcher/suffix_array/impls.rs:41-47 -/
def lcpAroundPos (t : SuffixTable) (value : Bytes) (pos : Nat) : Option LiteralE :=
  if pos = 0 then t.literalEntries[pos]? else t.lcpBetweenConsecutive value (pos - 1)

/-- `longest_common_prefix`, /repo/src/matcher/suffix_array/impls.rs:85-94 -/
def longestCommonPrefix (t : SuffixTable) (value : Bytes) : M (Option LiteralE) := do
  match ← binarySearchBy (fun probe : LiteralE => .ok (cmpBytes probe.literal value)) t.literalEntries with
  | .ok pos => pure t.literalEntries[pos]?
  | .err pos => pure (t.lcpAroundPos value pos)

/-- `insert_literal`, /repo/src/matcher/suffix_array/impls.rs:49-61; `f` is applied to the returned entry. -/
def insertLiteral (t : SuffixTable) (literal : Bytes) (f : LiteralE → M LiteralE) : M SuffixTable := do
  match ← binarySearchBy (fun probe : LiteralE => .ok (cmpBytes probe.literal literal)) t.literalEntries with
  | .ok pos =>
    let e ← unwrap t.literalEntries[pos]?
    let e' ← f e
    pure { t with literalEntries := t.literalEntries.set pos e' }
  | .err pos =>
    let l ← vecInsert t.literalEntries pos (LiteralE.new literal)
    let e ← unwrap l[pos]?
    let e' ← f e
    pure { t with literalEntries := l.set pos e' }

/-- `insert_parser`, /repo/src/matcher/suffix_array/impls.rs:72-83; `f` is applied to the returned entry. -/
def insertParser (sip : Bytes → UInt64) (t : SuffixTable) (parser : Parser) (f : ParserE → M ParserE) :
    M SuffixTable :=
  match t.parserEntries.findIdx? (fun x => x.parser.hashOs sip == parser.hashOs sip) with
  | some pos => do
    let n ← unwrap t.parserEntries[pos]?
    let n' ← f n
    pure { t with parserEntries := t.parserEntries.set pos n' }
  | none => do
    let n' ← f (ParserE.new parser)
    pure { t with parserEntries := t.parserEntries ++ [n'] }

/-- `SuffixTable::insert`, /repo/src/matcher/suffix_array/impls.rs:111-123, with `Entry::insert`,
/repo/src/matcher/suffix_array/interface.rs:17-25, as the update of the entry. -/
def insert (sip : Bytes → UInt64) (t : SuffixTable) (pattern : Pattern) : M SuffixTable :=
  match _h : pattern.popFirstToken with
  | none => .ok t
  | some (.literal literal, p) =>
    t.insertLiteral literal fun entry =>
      if p.pattern.isEmpty then .ok { entry with pattern := some p }
      else
        match insert sip SuffixTable.new p with
        | .error e => .error e
        | .ok sa => .ok { entry with child := some sa }
  | some (.parser parser, p) =>
    t.insertParser sip parser fun entry =>
      if p.pattern.isEmpty then .ok { entry with pattern := some p }
      else
        match insert sip SuffixTable.new p with
        | .error e => .error e
        | .ok sa => .ok { entry with child := some sa }
termination_by pattern.pattern.length
decreasing_by
  all_goals
    simp only [Pattern.popFirstToken] at _h
    split at _h
    · simp at _h
    · rename_i heq
      simp at _h
      rw [heq, ← _h.2]
      simp

theorem lcp_mem {t : SuffixTable} {value : Bytes} {e : LiteralE} :
    t.longestCommonPrefix value = .ok (some e) → e ∈ t.literalEntries := by
  intro h
  unfold longestCommonPrefix at h
  simp only [bind, Except.bind] at h
  split at h
  · simp at h
  · split at h
    · simp [pure, Except.pure] at h
      exact List.mem_of_getElem? h
    · simp only [pure, Except.pure, lcpAroundPos, lcpBetweenConsecutive] at h
      split at h
      · simp at h; exact List.mem_of_getElem? h
      · split at h
        · simp at h; exact List.mem_of_getElem? h
        · rename_i h1
          split at h
          · rw [h1] at h; simp at h; exact h ▸ List.mem_of_getElem? h1
          · rename_i h2
            split at h
            · rw [h1] at h; simp at h; exact h ▸ List.mem_of_getElem? h1
            · rw [h2] at h; simp at h; exact h ▸ List.mem_of_getElem? h2

end SuffixTable

/-- `ParserE::create_match_result`, /repo/src/matcher/suffix_array/impls.rs:152-161 -/
def ParserE.createMatchResult (p : ParserE) (value : Bytes) : Option MatchResult :=
  match p.pattern with
  | some pattern => some ((MatchResult.new pattern).insert p.parser value)
  | none => none

mutual
/-- `Matcher::parse` of `SuffixTable`, /repo/src/matcher/suffix_array/impls.rs:249-263 -/
def SuffixTable.parse (t : SuffixTable) (value : Bytes) : M (Option MatchResult) :=
  match _h : t.longestCommonPrefix value with
  | .error e => .error e
  | .ok (some child) =>
    let cpl := commonPrefixLen child.literal value
    if cpl = value.length then
      .ok (child.pattern.map MatchResult.new)
    else if cpl < value.length then
      match ltrunc value cpl with
      | .error e => .error e
      | .ok value =>
        match _hc : child.child with
        | none => .ok none
        | some c => c.parse value
    else .ok none
  | .ok none => sparseWithParsers t.parserEntries value
termination_by sizeOf t
decreasing_by
  · have h0 := List.sizeOf_lt_of_mem (SuffixTable.lcp_mem _h)
    have e1 : sizeOf t = 1 + sizeOf t.literalEntries + sizeOf t.parserEntries := by cases t; simp
    have e2 : sizeOf child = 1 + sizeOf child.pattern + sizeOf child.literal + sizeOf child.child := by
      cases child; simp
    rw [_hc] at e2; simp at e2; omega
  · cases t; simp; omega

/-- `parse_with_parsers`, /repo/src/matcher/suffix_array/impls.rs:63-70 -/
def sparseWithParsers (ps : List ParserE) (value : Bytes) : M (Option MatchResult) :=
  match ps with
  | [] => .ok none
  | p :: rest =>
    match p.parse value with
    | .error e => .error e
    | .ok (some result) => .ok (some result)
    | .ok none => sparseWithParsers rest value
termination_by sizeOf ps
decreasing_by
  · simp; omega
  · simp; omega

/-- `ParserEntry::parse` of `ParserE`, /repo/src/matcher/suffix_array/impls.rs:186-203 -/
def ParserE.parse (p : ParserE) (value : Bytes) : M (Option MatchResult) :=
  match p.parser.parse value with
  | .error e => .error e
  | .ok none => .ok none
  | .ok (some v) =>
    match ltrunc value v.length with
    | .error e => .error e
    | .ok value =>
      match _h : p.child with
      | some child =>
        match child.parse value with
        | .error e => .error e
        | .ok (some result) => .ok (some (result.insert p.parser v))
        | .ok none => .ok none
      | none => if value.isEmpty then .ok (p.createMatchResult v) else .ok none
termination_by sizeOf p
decreasing_by
  have e2 : sizeOf p = 1 + sizeOf p.pattern + sizeOf p.parser + sizeOf p.child := by cases p; simp
  rw [_h] at e2; simp at e2; omega
end

/-- `Matcher::add_pattern`, /repo/src/matcher/suffix_array/impls.rs:264-266 -/
def SuffixTable.addPattern (sip : Bytes → UInt64) (t : SuffixTable) (p : Pattern) : M SuffixTable := t.insert sip p

/-- A matcher after a history of `add_pattern` calls on `new_matcher()` (/repo/src/matcher/suffix_array/mod.rs:14-20). -/
def SuffixTable.build (sip : Bytes → UInt64) (ps : List Pattern) : M SuffixTable :=
  ps.foldlM (fun t p => t.addPattern sip p) SuffixTable.new

end Verif
