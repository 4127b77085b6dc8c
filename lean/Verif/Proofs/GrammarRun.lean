import Verif.Proofs.GrammarTop
/-! The rules match the words of the language: forward runs. -/
namespace Verif
open Spec

variable {α β : Type} {inp rest : Bytes} {p q q' : Nat}

/-- the rule matches up to `q` with value `v` -/
def Runs (r : Rule α) (inp : Bytes) (p q : Nat) (v : α) : Prop := ∀ st, ∃ st', r inp st p = .ok (some (q, v), st')
/-- the rule does not match -/
def Fails (r : Rule α) (inp : Bytes) (p : Nat) : Prop := ∀ st, ∃ st', r inp st p = .ok (none, st')
/-- the rule panics -/
def Panics (r : Rule α) (inp : Bytes) (p : Nat) : Prop := ∀ st, r inp st p = .error .unwrap

theorem Runs.cast {r : Rule α} {v : α} (h : Runs r inp p q v) (e : q = q') : Runs r inp p q' v := e ▸ h

theorem pure_runs (v : α) : Runs (fun _ state pos => .ok (some (pos, v), state)) inp p p v := fun st => ⟨st, rfl⟩

theorem seq_runs {r : Rule α} {k : α → Rule β} {v : α} {u : β} (h1 : Runs r inp p q v) (h2 : Runs (k v) inp q q' u) : Runs (r.seq k) inp p q' u := by
  intro st
  obtain ⟨st1, e1⟩ := h1 st
  obtain ⟨st2, e2⟩ := h2 st1
  exact ⟨st2, by unfold Rule.seq; rw [e1]; exact e2⟩

theorem seq_fails {r : Rule α} {k : α → Rule β} (h1 : Fails r inp p) : Fails (r.seq k) inp p := by
  intro st
  obtain ⟨st1, e1⟩ := h1 st
  exact ⟨st1, by unfold Rule.seq; rw [e1]⟩

theorem seq_fails2 {r : Rule α} {k : α → Rule β} {v : α} (h1 : Runs r inp p q v) (h2 : Fails (k v) inp q) : Fails (r.seq k) inp p := by
  intro st
  obtain ⟨st1, e1⟩ := h1 st
  obtain ⟨st2, e2⟩ := h2 st1
  exact ⟨st2, by unfold Rule.seq; rw [e1]; exact e2⟩

theorem seq_panics {r : Rule α} {k : α → Rule β} (h1 : Panics r inp p) : Panics (r.seq k) inp p := by
  intro st
  unfold Rule.seq; rw [h1 st]

theorem seq_panics2 {r : Rule α} {k : α → Rule β} {v : α} (h1 : Runs r inp p q v) (h2 : Panics (k v) inp q) : Panics (r.seq k) inp p := by
  intro st
  obtain ⟨st1, e1⟩ := h1 st
  unfold Rule.seq; rw [e1]; exact h2 st1

theorem action_runs {r : Rule α} {f : Bytes → α → M β} {v : α} {u : β} {w : Bytes} (h : At inp p (w ++ rest)) (hw : Utf8 w)
    (h1 : Runs r inp p (p + w.length) v) (hf : f w v = .ok u) : Runs (r.action f) inp p (p + w.length) u := by
  intro st
  obtain ⟨st1, e1⟩ := h1 st
  exact ⟨st1, by unfold Rule.action; rw [e1]; simp only; rw [h.slice hw]; simp only [hf]⟩

theorem action_fails {r : Rule α} {f : Bytes → α → M β} (h1 : Fails r inp p) : Fails (r.action f) inp p := by
  intro st
  obtain ⟨st1, e1⟩ := h1 st
  exact ⟨st1, by unfold Rule.action; rw [e1]⟩

theorem action_panics {r : Rule α} {f : Bytes → α → M β} (h1 : Panics r inp p) : Panics (r.action f) inp p := by
  intro st
  unfold Rule.action; rw [h1 st]

theorem orElse_left {a b : Rule α} {v : α} (h : Runs a inp p q v) : Runs (a.orElse b) inp p q v := by
  intro st
  obtain ⟨st1, e1⟩ := h st
  exact ⟨st1, by unfold Rule.orElse; rw [e1]⟩

theorem orElse_right {a b : Rule α} {v : α} (h : Fails a inp p) (h2 : Runs b inp p q v) : Runs (a.orElse b) inp p q v := by
  intro st
  obtain ⟨st1, e1⟩ := h st
  obtain ⟨st2, e2⟩ := h2 st1
  exact ⟨st2, by unfold Rule.orElse; rw [e1]; exact e2⟩

theorem orElse_fails {a b : Rule α} (h : Fails a inp p) (h2 : Fails b inp p) : Fails (a.orElse b) inp p := by
  intro st
  obtain ⟨st1, e1⟩ := h st
  obtain ⟨st2, e2⟩ := h2 st1
  exact ⟨st2, by unfold Rule.orElse; rw [e1]; exact e2⟩

theorem orElse_panics {a b : Rule α} (h : Panics a inp p) : Panics (a.orElse b) inp p := by
  intro st
  unfold Rule.orElse; rw [h st]

theorem orElse_panics2 {a b : Rule α} (h : Fails a inp p) (h2 : Panics b inp p) : Panics (a.orElse b) inp p := by
  intro st
  obtain ⟨st1, e1⟩ := h st
  unfold Rule.orElse; rw [e1]; exact h2 st1

theorem opt_some {r : Rule α} {v : α} (h : Runs r inp p q v) : Runs r.opt inp p q (some v) := by
  intro st
  obtain ⟨st1, e1⟩ := h st
  exact ⟨st1, by unfold Rule.opt; rw [e1]⟩

theorem opt_none {r : Rule α} (h : Fails r inp p) : Runs r.opt inp p p none := by
  intro st
  obtain ⟨st1, e1⟩ := h st
  exact ⟨st1, by unfold Rule.opt; rw [e1]⟩

theorem opt_panics {r : Rule α} (h : Panics r inp p) : Panics r.opt inp p := by
  intro st
  unfold Rule.opt; rw [h st]

theorem notP_runs {r : Rule α} (h : Fails r inp p) : Runs r.notP inp p p () := by
  intro st
  obtain ⟨st1, e1⟩ := h st
  exact ⟨st1, by unfold Rule.notP; rw [e1]⟩

theorem notP_fails {r : Rule α} {v : α} (h : Runs r inp p q v) : Fails r.notP inp p := by
  intro st
  obtain ⟨st1, e1⟩ := h st
  exact ⟨st1, by unfold Rule.notP; rw [e1]⟩

/-- the loop runs to `q` and stops there -/
def LoopRuns (r : Rule α) (inp : Bytes) (p q : Nat) (vs : List α) : Prop := ∀ st, ∃ st', r.loop inp st p = .ok (q, vs, st')
/-- the loop panics -/
def LoopPanics (r : Rule α) (inp : Bytes) (p : Nat) : Prop := ∀ st, r.loop inp st p = .error .unwrap

theorem loop_stop {r : Rule α} (h : Fails r inp p) : LoopRuns r inp p p [] := by
  intro st
  obtain ⟨st1, e1⟩ := h st
  exact ⟨st1, by rw [Rule.loop, e1]⟩

theorem loop_step {r : Rule α} {v : α} {vs : List α} (h : Runs r inp p q v) (h1 : p < q) (h2 : q ≤ inp.length) (h3 : LoopRuns r inp q q' vs) :
    LoopRuns r inp p q' (v :: vs) := by
  intro st
  obtain ⟨st1, e1⟩ := h st
  obtain ⟨st2, e2⟩ := h3 st1
  exact ⟨st2, by rw [Rule.loop, e1]; simp only; rw [if_pos ⟨h1, h2⟩, e2]⟩

theorem loop_panics {r : Rule α} (h : Panics r inp p) : LoopPanics r inp p := by
  intro st
  rw [Rule.loop, h st]

theorem loop_panics_step {r : Rule α} {v : α} (h : Runs r inp p q v) (h1 : p < q) (h2 : q ≤ inp.length) (h3 : LoopPanics r inp q) :
    LoopPanics r inp p := by
  intro st
  obtain ⟨st1, e1⟩ := h st
  rw [Rule.loop, e1]; simp only; rw [if_pos ⟨h1, h2⟩, h3 st1]

theorem star_runs {r : Rule α} {vs : List α} (h : LoopRuns r inp p q vs) : Runs r.star inp p q vs := by
  intro st
  obtain ⟨st1, e1⟩ := h st
  exact ⟨st1, by rw [Rule.star, e1]⟩

theorem star_panics {r : Rule α} (h : LoopPanics r inp p) : Panics r.star inp p := by
  intro st
  rw [Rule.star, h st]

theorem plus_runs {r : Rule α} {vs : List α} (h : LoopRuns r inp p q vs) (hv : vs ≠ []) : Runs r.plus inp p q vs := by
  intro st
  obtain ⟨st1, e1⟩ := h st
  refine ⟨st1, ?_⟩
  rw [Rule.plus, e1]
  simp only
  rw [if_pos (show vs.length ≥ 1 from List.length_pos_iff.mpr hv)]

theorem plus_fails {r : Rule α} (h : Fails r inp p) : Fails r.plus inp p := by
  intro st
  obtain ⟨st1, e1⟩ := loop_stop h st
  refine ⟨st1, ?_⟩
  rw [Rule.plus, e1]
  simp

theorem plus_panics {r : Rule α} (h : LoopPanics r inp p) : Panics r.plus inp p := by
  intro st
  rw [Rule.plus, h st]

/-- the loop gets from `p` to `q`, collecting `vs`, and goes on from there -/
def LoopVia (r : Rule α) (inp : Bytes) (p q : Nat) (vs : List α) : Prop := ∀ st, ∃ st1, r.loop inp st p =
  match r.loop inp st1 q with
  | .error e => .error e
  | .ok (q', vs', st') => .ok (q', vs ++ vs', st')

theorem via_refl (r : Rule α) (inp : Bytes) (p : Nat) : LoopVia r inp p p [] := by
  intro st
  refine ⟨st, ?_⟩
  cases r.loop inp st p with
  | error e => rfl
  | ok x => rfl

theorem via_step {r : Rule α} {v : α} {vs : List α} (h : Runs r inp p q v) (h1 : p < q) (h2 : q ≤ inp.length) (h3 : LoopVia r inp q q' vs) :
    LoopVia r inp p q' (v :: vs) := by
  intro st
  obtain ⟨st1, e1⟩ := h st
  obtain ⟨st2, e2⟩ := h3 st1
  refine ⟨st2, ?_⟩
  rw [Rule.loop, e1]
  simp only
  rw [if_pos ⟨h1, h2⟩, e2]
  cases r.loop inp st2 q' with
  | error e => rfl
  | ok x => rfl

theorem via_runs {r : Rule α} {vs vs' : List α} {q'' : Nat} (h : LoopVia r inp p q vs) (h1 : LoopRuns r inp q q'' vs') :
    LoopRuns r inp p q'' (vs ++ vs') := by
  intro st
  obtain ⟨st1, e1⟩ := h st
  obtain ⟨st2, e2⟩ := h1 st1
  exact ⟨st2, by rw [e1, e2]⟩

theorem via_panics {r : Rule α} {vs : List α} (h : LoopVia r inp p q vs) (h1 : LoopPanics r inp q) : LoopPanics r inp p := by
  intro st
  obtain ⟨st1, e1⟩ := h st
  rw [e1, h1 st1]

/-! ### Single characters and keywords -/

theorem sliceEq_runs {m r : Bytes} (h : At inp p (m ++ r)) : Runs (sliceEq m) inp p (p + m.length) () := fun st => ⟨st, sliceEq_yes h st⟩
theorem sliceEq_fails {m : Bytes} (h : At inp p rest) (hn : ¬ m <+: rest) : Fails (sliceEq m) inp p := fun st => ⟨_, sliceEq_no h hn st⟩

theorem keyword_runs {m r : Bytes} (h : At inp p (m ++ r)) (hm : Ascii m) :
    Runs ((sliceEq m).action fun s _ => .ok s) inp p (p + m.length) m := action_runs h (ascii_utf8 hm) (sliceEq_runs h) rfl
theorem keyword_fails {m : Bytes} (h : At inp p rest) (hn : ¬ m <+: rest) : Fails ((sliceEq m).action fun s _ => (.ok s : M Bytes)) inp p :=
  action_fails (sliceEq_fails h hn)

theorem utf8_left {w r : Bytes} {c : UInt8} (h : Utf8 (w ++ c :: r)) (hc : c.toNat < 128) : Utf8 w := by
  have hb : isCharBoundary (w ++ c :: r) w.length = true := by
    simp [isCharBoundary, not_cont_of_ascii hc]
  have := (boundary_split h hb).1
  simpa using this

theorem utf8_left_stop {w r : Bytes} (h : Utf8 (w ++ r)) (hs : Stop r) : Utf8 w := by
  rcases hs with rfl | ⟨t, rfl⟩
  · simpa using h
  · exact utf8_left h (by decide)

/-! ### Names -/

theorem identStep_runs {b : UInt8} {r : Bytes} (h : At inp p (b :: r)) (hb : NameChar b) (hd : NoDash r) : Runs identStep inp p (p + 1) () := by
  have ha := (h.step (w := [b]) (ascii_utf8 (ascii_cons.mpr ⟨nameChar_ascii hb, ascii_nil⟩)))
  refine seq_runs (fun st => ⟨st, charClass_yes h ((isIdentChar_iff b).mpr hb) identChar_class _ st⟩) (notP_runs fun st => ⟨_, charClass_no ha ?_ _ st⟩)
  intro c t e
  simpa using hd c t e

theorem identStep_fails (h : At inp p rest) (hn : ∀ c t, rest = c :: t → ¬NameChar c) : Fails identStep inp p :=
  seq_fails fun st => ⟨_, charClass_no h (fun c t e => by have := hn c t e; rw [← isIdentChar_iff] at this; simpa using this) _ st⟩

theorem identLoop_runs {t : Bytes} (h1 : ∀ x ∈ t, NameChar x) (h2 : ∀ x ∈ t.tail, x ≠ 45) (hn : ∀ c t, rest = c :: t → ¬NameChar c) :
    ∀ {p}, At inp p (t ++ rest) → ∃ vs, LoopRuns identStep inp p (p + t.length) vs := by
  induction t with
  | nil => intro p h; exact ⟨[], loop_stop (identStep_fails h hn)⟩
  | cons b t ih =>
    intro p h
    have hb := h1 b (by simp)
    have hl := h.length
    obtain ⟨vs, hvs⟩ := ih (fun x hx => h1 x (by simp [hx])) (fun x hx => h2 x (List.mem_of_mem_tail hx))
      (h.step (w := [b]) (ascii_utf8 (ascii_cons.mpr ⟨nameChar_ascii hb, ascii_nil⟩)))
    refine ⟨() :: vs, loop_step (q := p + 1) (identStep_runs h hb ?_) (by omega) (by simp at hl; omega) ?_⟩
    · intro c u e
      cases t with
      | nil =>
        intro hc; subst hc
        exact hn _ u e (by simp [NameChar])
      | cons x t =>
        have e' : x :: (t ++ rest) = c :: u := e
        rw [List.cons.injEq] at e'
        rw [← e'.1]; exact h2 x (by simp)
    · rw [show p + (b :: t).length = p + [b].length + t.length by simp; omega]; exact hvs

theorem parseIdentifier_runs {n : Bytes} (h : At inp p (n ++ rest)) (hn : Name n) (hr : ∀ c t, rest = c :: t → ¬NameChar c) :
    Runs parseIdentifier inp p (p + n.length) n := by
  have hu := ascii_utf8 (name_ascii hn)
  cases hn with
  | mk c t h1 h2 h3 =>
    obtain ⟨vs, hvs⟩ := identLoop_runs h2 h3 hr (h.step (w := [c]) (ascii_utf8 (ascii_cons.mpr ⟨nameStart_ascii h1, ascii_nil⟩)))
    refine action_runs (v := vs) h hu ?_ rfl
    refine seq_runs (q := p + 1) (v := ()) (fun st => ⟨st, charClass_yes h ((isIdentStart_iff c).mpr h1) identStart_class _ st⟩) (star_runs ?_)
    rw [show p + (c :: t).length = p + [c].length + t.length by simp; omega]; exact hvs

/-- the text continues with the end of a parser -/
def EndNext (rest : Bytes) : Prop := ∃ r, rest = b!"}" ++ r

theorem end_not_name (h : EndNext rest) : ∀ c t, rest = c :: t → ¬NameChar c := by
  obtain ⟨r, rfl⟩ := h
  rintro c t e
  have : c = 125 := by simp at e; exact e.1.symm
  subst this
  simp [NameChar, NameStart, Digit]

theorem nameText_utf8 {n : Option Bytes} {x : Bytes} (h : NameText n x) : Ascii x := by
  cases h with
  | none => exact ascii_nil
  | some n h => exact ascii_append.mpr ⟨by decide, name_ascii h⟩

theorem parserNameOpt_runs {n : Option Bytes} {x : Bytes} (h : At inp p (x ++ rest)) (hn : NameText n x) (hr : EndNext rest) :
    Runs parseParserName.opt inp p (p + x.length) n := by
  have hu := ascii_utf8 (nameText_utf8 hn)
  cases hn with
  | none =>
    refine opt_none (action_fails (seq_fails (sliceEq_fails h ?_)))
    obtain ⟨r, rfl⟩ := hr
    simp
  | some n hn =>
    refine opt_some (action_runs (v := n) h hu ?_ rfl)
    have h' : At inp p (b!":" ++ (n ++ rest)) := by simpa using h
    refine (seq_runs (sliceEq_runs h') (parseIdentifier_runs (h'.step (ascii_utf8 (by decide))) hn (end_not_name hr))).cast ?_
    simp; omega

/-! ### Literal text and quoted strings -/

theorem noBegin_prefix {w r : Bytes} (hw : w ≠ []) (hn : NoBegin w) (hs : Stop r) : ¬ b!"%{" <+: w ++ r := by
  rintro ⟨t, ht⟩
  match w, hw with
  | [c], _ =>
    simp at ht
    rcases hs with rfl | ⟨u, rfl⟩
    · simp at ht
    · simp at ht
  | c :: d :: w, _ =>
    simp at ht
    obtain ⟨rfl, rfl, _⟩ := ht
    exact hn ⟨[], w, by simp⟩

theorem noBegin_right {a b : Bytes} (h : NoBegin (a ++ b)) : NoBegin b := by
  rintro ⟨s, t, e⟩
  exact h ⟨a ++ s, t, by rw [← e]; simp⟩

theorem literalStep_fails (h : At inp p rest) (hs : Stop rest) : Fails literalStep inp p := by
  rcases hs with rfl | ⟨r, rfl⟩
  · exact seq_fails2 (notP_runs (sliceEq_fails h (by simp))) fun st => ⟨_, anyChar_end h st⟩
  · exact seq_fails (notP_fails (sliceEq_runs h))

theorem literalLoop_runs (hs : Stop rest) : ∀ (n : Nat) {w : Bytes}, w.length ≤ n → Utf8 w → NoBegin w → ∀ {p}, At inp p (w ++ rest) →
    ∃ vs, LoopRuns literalStep inp p (p + w.length) vs ∧ (w ≠ [] → vs ≠ []) := by
  intro n
  induction n with
  | zero =>
    intro w hn _ _ p h
    have : w = [] := List.eq_nil_of_length_eq_zero (by omega)
    subst this
    exact ⟨[], loop_stop (literalStep_fails h hs), by simp⟩
  | succ n ih =>
    intro w hn hu hb p h
    rcases utf8_first hu with rfl | ⟨b, tl, r, rfl, h1, h2, h3, h4, h5⟩
    · exact ⟨[], loop_stop (literalStep_fails h hs), by simp⟩
    · have hnb := noBegin_prefix (by simp) hb hs
      rw [List.append_assoc] at h
      obtain ⟨vs, hvs, _⟩ := ih (by simp at hn; omega) h2 (noBegin_right hb) (h.step h1)
      have hl := h.length
      refine ⟨() :: vs, loop_step (q := p + (b :: tl).length) ?_ (by simp) (by simp at hl ⊢; omega) ?_, by simp⟩
      · exact seq_runs (notP_runs (sliceEq_fails h (by simpa using hnb))) fun st => ⟨st, anyChar_run h h3 st⟩
      · rw [List.length_append, ← Nat.add_assoc]; exact hvs

theorem parseLiteral_runs {w : Bytes} (h : At inp p (w ++ rest)) (hw : w ≠ []) (hn : NoBegin w) (hs : Stop rest) :
    Runs parseLiteral inp p (p + w.length) w := by
  have hu := utf8_left_stop h.utf8 hs
  obtain ⟨vs, h1, h2⟩ := literalLoop_runs hs _ (Nat.le_refl _) hu hn h
  exact action_runs (v := vs) h hu (plus_runs h1 (h2 hw)) rfl

theorem parseLiteral_fails (h : At inp p rest) (hs : Stop rest) : Fails parseLiteral inp p :=
  action_fails (plus_fails (literalStep_fails h hs))

theorem quotedLoop_runs {r0 : Bytes} : ∀ (n : Nat) {w : Bytes}, w.length ≤ n → Utf8 w → 34 ∉ w → ∀ {p}, At inp p (w ++ (b!"\"" ++ r0)) →
    ∃ vs, LoopRuns quotedStep inp p (p + w.length) vs ∧ (w ≠ [] → vs ≠ []) := by
  have stop : ∀ {p}, At inp p (b!"\"" ++ r0) → Fails quotedStep inp p := fun h => seq_fails (notP_fails (sliceEq_runs h))
  intro n
  induction n with
  | zero =>
    intro w hn _ _ p h
    have : w = [] := List.eq_nil_of_length_eq_zero (by omega)
    subst this
    exact ⟨[], loop_stop (stop h), by simp⟩
  | succ n ih =>
    intro w hn hu hb p h
    rcases utf8_first hu with rfl | ⟨b, tl, r, rfl, h1, h2, h3, h4, h5⟩
    · exact ⟨[], loop_stop (stop h), by simp⟩
    · rw [List.append_assoc] at h
      simp only [List.mem_append, not_or] at hb
      obtain ⟨vs, hvs, _⟩ := ih (by simp at hn; omega) h2 hb.2 (h.step h1)
      have hl := h.length
      refine ⟨() :: vs, loop_step (q := p + (b :: tl).length) ?_ (by simp) (by simp at hl ⊢; omega) ?_, by simp⟩
      · refine seq_runs (notP_runs (sliceEq_fails h ?_)) fun st => ⟨st, anyChar_run h h3 st⟩
        rintro ⟨t, ht⟩
        simp at ht
        exact hb.1 (by simp [ht.1])
      · rw [List.length_append, ← Nat.add_assoc]; exact hvs

theorem parseString_runs {cs : Bytes} (h : At inp p (b!"\"" ++ (cs ++ (b!"\"" ++ rest)))) (hc : cs ≠ []) (hq : 34 ∉ cs) :
    Runs parseString inp p (p + (b!"\"" ++ (cs ++ b!"\"")).length) cs := by
  have h1 := h.step (w := b!"\"") (ascii_utf8 (by decide))
  have hu : Utf8 cs := utf8_left h1.utf8 (by decide)
  have h2 := h1.step hu
  obtain ⟨vs, l1, l2⟩ := quotedLoop_runs _ (Nat.le_refl _) hu hq h1
  refine action_runs (rest := rest) (v := cs) (by simpa using h)
    (utf8_append (ascii_utf8 (by decide)) (utf8_append hu (ascii_utf8 (by decide)))) ?_ rfl
  have hq2 : Runs parseQuoted inp (p + b!"\"".length) (p + b!"\"".length + cs.length) cs := action_runs (v := vs) h1 hu (plus_runs l1 (l2 hc)) rfl
  refine (seq_runs (sliceEq_runs h) (seq_runs hq2 (seq_runs (sliceEq_runs h2) (pure_runs _)))).cast ?_
  simp; omega

/-! ### Options -/

theorem spaces_runs (hr : ¬ b!" " <+: rest) : ∀ (k : Nat) {p}, At inp p (List.replicate k 32 ++ rest) →
    ∃ vs, LoopRuns (sliceEq b!" ") inp p (p + k) vs := by
  intro k
  induction k with
  | zero => intro p h; exact ⟨[], loop_stop (sliceEq_fails h hr)⟩
  | succ k ih =>
    intro p h
    have h' : At inp p (b!" " ++ (List.replicate k 32 ++ rest)) := h
    have hl := h'.length
    obtain ⟨vs, hvs⟩ := ih (h'.step (ascii_utf8 (by decide)))
    refine ⟨() :: vs, loop_step (sliceEq_runs h') (by simp) (by simp at hl ⊢; omega) ?_⟩
    rw [show p + (k + 1) = p + b!" ".length + k by simp; omega]; exact hvs

theorem parseComma_runs {c : Bytes} (h : At inp p (c ++ rest)) (hc : Comma c) (hr : ¬ b!" " <+: rest) :
    ∃ v, Runs parseComma inp p (p + c.length) v := by
  obtain ⟨k, rfl⟩ := hc
  have h' : At inp p (b!"," ++ (List.replicate k 32 ++ rest)) := h
  obtain ⟨vs, hvs⟩ := spaces_runs hr k (h'.step (ascii_utf8 (by decide)))
  exact ⟨vs, (seq_runs (sliceEq_runs h') (star_runs hvs)).cast (by simp; omega)⟩

theorem parseComma_fails (h : At inp p rest) (hr : ¬ b!"," <+: rest) : Fails parseComma inp p := seq_fails (sliceEq_fails h hr)

/-- the number part of an option -/
theorem baseOption_runs {kw d : Bytes} {n : Nat} (hk : Ascii kw) (h : At inp p (kw ++ (b!"=" ++ (d ++ rest)))) (hd : Number d n) (hlt : n < 2 ^ 64)
    (hr : NoDigit rest) :
    Runs (Rule.action (Rule.seq ((sliceEq kw).action fun s _ => .ok s) fun name => (sliceEq b!"=").seq fun _ => parseInt.seq fun value =>
        fun _ state pos => .ok (some (pos, (name, value)), state)) fun _ p => .ok (OptionalParameter.mk p.1 p.2))
      inp p (p + (kw ++ (b!"=" ++ d)).length) ⟨kw, n⟩ := by
  have h1 := h.step (ascii_utf8 hk)
  have h2 := h1.step (w := b!"=") (ascii_utf8 (by decide))
  refine action_runs (rest := rest) (v := (kw, n)) (by simpa using h)
    (ascii_utf8 (ascii_append.mpr ⟨hk, ascii_append.mpr ⟨by decide, number_ascii hd⟩⟩)) ?_ rfl
  have hi : Runs parseInt inp (p + kw.length + b!"=".length) (p + kw.length + b!"=".length + d.length) n :=
    fun st => ⟨_, by rw [parseInt_run h2 hd hr, if_pos hlt]⟩
  refine (seq_runs (keyword_runs h hk) (seq_runs (sliceEq_runs h1) (seq_runs hi (pure_runs _)))).cast ?_
  simp; omega

theorem baseOption_panics {kw d : Bytes} {n : Nat} (hk : Ascii kw) (h : At inp p (kw ++ (b!"=" ++ (d ++ rest)))) (hd : Number d n) (hlt : 2 ^ 64 ≤ n)
    (hr : NoDigit rest) :
    Panics (Rule.action (Rule.seq ((sliceEq kw).action fun s _ => .ok s) fun name => (sliceEq b!"=").seq fun _ => parseInt.seq fun value =>
        fun _ state pos => .ok (some (pos, (name, value)), state)) fun _ p => .ok (OptionalParameter.mk p.1 p.2)) inp p := by
  have h1 := h.step (ascii_utf8 hk)
  have h2 := h1.step (w := b!"=") (ascii_utf8 (by decide))
  refine action_panics (seq_panics2 (keyword_runs h hk) (seq_panics2 (sliceEq_runs h1) (seq_panics fun st => ?_)))
  rw [parseInt_run h2 hd hr, if_neg (by omega)]

theorem parseBaseOptionalParam_runs {o : LenOpt} {w : Bytes} (h : At inp p (w ++ rest)) (ho : OptText o w) (hr : NoDigit rest) :
    Runs parseBaseOptionalParam inp p (p + w.length) (ofOpt o) := by
  cases ho with
  | min d n h1 h2 =>
    exact orElse_left ((baseOption_runs (kw := b!"min_len") (by decide) (by simpa using h) h1 h2 hr).cast (by simp))
  | max d n h1 h2 =>
    exact orElse_right (action_fails (seq_fails (keyword_fails h (by simp))))
      ((baseOption_runs (kw := b!"max_len") (by decide) (by simpa using h) h1 h2 hr).cast (by simp))

theorem parseBaseOptionalParam_fails (h : At inp p rest) (h1 : ¬ b!"m" <+: rest) : Fails parseBaseOptionalParam inp p := by
  refine orElse_fails (action_fails (seq_fails (keyword_fails h fun ⟨t, e⟩ => h1 ⟨b!"in_len" ++ t, ?_⟩)))
    (action_fails (seq_fails (keyword_fails h fun ⟨t, e⟩ => h1 ⟨b!"ax_len" ++ t, ?_⟩)))
  · rw [← e]; rfl
  · rw [← e]; rfl

theorem parseBaseOptionalParam_panics (h : At inp p rest) (ho : OverflowOpt rest) : Panics parseBaseOptionalParam inp p := by
  obtain ⟨d, n, t, h1, h2, h3, rfl | rfl⟩ := ho
  · exact orElse_panics (baseOption_panics (kw := b!"min_len") (by decide) (by simpa using h) h1 h2 h3)
  · exact orElse_panics2 (action_fails (seq_fails (keyword_fails h (by simp))))
      (baseOption_panics (kw := b!"max_len") (by decide) (by simpa using h) h1 h2 h3)

theorem optText_m {o : LenOpt} {w : Bytes} (h : OptText o w) : ∃ t, w = 109 :: t := by
  cases h with
  | min d n _ _ => exact ⟨_, rfl⟩
  | max d n _ _ => exact ⟨_, rfl⟩

theorem overflowOpt_m {w : Bytes} (h : OverflowOpt w) : ∃ t, w = 109 :: t := by
  obtain ⟨d, n, t, _, _, _, rfl | rfl⟩ := h
  · exact ⟨_, rfl⟩
  · exact ⟨_, rfl⟩

/-- what may follow an option: not a digit -/
theorem noDigit_cons {c : UInt8} {t : Bytes} (h : ¬Digit c) : NoDigit (c :: t) := by
  rintro _ _ ⟨rfl, rfl⟩; exact h

theorem comma_noDigit {c r : Bytes} (h : Comma c) : NoDigit (c ++ r) := by
  obtain ⟨k, rfl⟩ := h
  exact noDigit_cons (by simp [Digit])

theorem optTail_noDigit {os : List LenOpt} {t : Bytes} (h : OptTail os t) (hr : NoDigit rest) : NoDigit (t ++ rest) := by
  cases h with
  | nil => exact hr
  | cons o os c w t hc _ _ => rw [List.append_assoc, List.append_assoc]; exact comma_noDigit hc

/-- one more option -/
theorem nextOption_runs {o : LenOpt} {c w : Bytes} (h : At inp p (c ++ (w ++ rest))) (hc : Comma c) (ho : OptText o w) (hr : NoDigit rest) :
    Runs (parseComma.seq fun _ => parseBaseOptionalParam) inp p (p + (c ++ w).length) (ofOpt o) := by
  obtain ⟨v, hv⟩ := parseComma_runs h hc (by obtain ⟨t, rfl⟩ := optText_m ho; simp)
  exact (seq_runs hv (parseBaseOptionalParam_runs (h.step (ascii_utf8 (comma_ascii hc))) ho hr)).cast (by simp; omega)

theorem optTail_loop {os : List LenOpt} {t : Bytes} (ht : OptTail os t) (hr : NoDigit rest) : ∀ {p}, At inp p (t ++ rest) →
    (∀ {q vs}, LoopRuns (parseComma.seq fun _ => parseBaseOptionalParam) inp (p + t.length) q vs →
      LoopRuns (parseComma.seq fun _ => parseBaseOptionalParam) inp p q (os.map ofOpt ++ vs)) ∧
    (LoopPanics (parseComma.seq fun _ => parseBaseOptionalParam) inp (p + t.length) →
      LoopPanics (parseComma.seq fun _ => parseBaseOptionalParam) inp p) := by
  induction ht with
  | nil => intro p h; exact ⟨fun h => h, fun h => h⟩
  | cons o os c w t hc hw ht ih =>
    intro p h
    have h' : At inp p (c ++ (w ++ (t ++ rest))) := by simpa using h
    have hrun := nextOption_runs h' hc hw (optTail_noDigit ht hr)
    have hu : Utf8 (c ++ w) := ascii_utf8 (ascii_append.mpr ⟨comma_ascii hc, optText_ascii hw⟩)
    have h2 : At inp (p + (c ++ w).length) (t ++ rest) := (show At inp p ((c ++ w) ++ (t ++ rest)) by simpa using h).step hu
    have hl := h'.length
    have hpos : 0 < w.length := by obtain ⟨u, rfl⟩ := optText_m hw; simp
    obtain ⟨i1, i2⟩ := ih h2
    have e : p + (c ++ w ++ t).length = p + (c ++ w).length + t.length := by simp; omega
    rw [e]
    refine ⟨fun hq => ?_, fun hq => ?_⟩
    · exact loop_step hrun (by simp; omega) (by simp at hl ⊢; omega) (i1 hq)
    · exact loop_panics_step hrun (by simp; omega) (by simp at hl ⊢; omega) (i2 hq)

/-- the text continues with the closing parenthesis -/
def ParenNext (rest : Bytes) : Prop := ∃ r, rest = b!")" ++ r

theorem paren_noDigit (h : ParenNext rest) : NoDigit rest := by
  obtain ⟨r, rfl⟩ := h; exact noDigit_cons (by simp [Digit])

theorem optionList_runs {os : List LenOpt} {t : Bytes} (h : At inp p (t ++ rest)) (ht : OptList os t) (hr : ParenNext rest) :
    Runs (parseBaseOptionalParam.sepBy parseComma) inp p (p + t.length) (os.map ofOpt) := by
  rw [sepBy_eq]
  cases ht with
  | nil =>
    refine orElse_right (seq_fails (parseBaseOptionalParam_fails h ?_)) (pure_runs _)
    obtain ⟨r, rfl⟩ := hr; simp
  | cons o os w t hw ht =>
    have h1 : At inp p (w ++ (t ++ rest)) := by simpa using h
    have h2 := h1.step (ascii_utf8 (optText_ascii hw))
    have h3 := h2.step (ascii_utf8 (optTail_ascii ht))
    have hfail : Fails (parseComma.seq fun _ => parseBaseOptionalParam) inp (p + w.length + t.length) :=
      seq_fails (parseComma_fails h3 (by obtain ⟨r, rfl⟩ := hr; simp))
    have hloop := (optTail_loop ht (paren_noDigit hr) h2).1 (loop_stop hfail)
    rw [List.append_nil] at hloop
    refine orElse_left ((seq_runs (parseBaseOptionalParam_runs h1 hw (optTail_noDigit ht (paren_noDigit hr)))
      (seq_runs (star_runs hloop) (pure_runs _))).cast (by simp; omega))

theorem optionList_panics (h : At inp p rest) (ho : OverflowList rest) : Panics (parseBaseOptionalParam.sepBy parseComma) inp p := by
  rw [sepBy_eq]
  cases ho with
  | first s hs => exact orElse_panics (seq_panics (parseBaseOptionalParam_panics h hs))
  | later o os w t c s hw ht hc hs =>
    have h1 : At inp p (w ++ (t ++ (c ++ s))) := by simpa using h
    have h2 := h1.step (ascii_utf8 (optText_ascii hw))
    have h3 := h2.step (ascii_utf8 (optTail_ascii ht))
    have h4 := h3.step (ascii_utf8 (comma_ascii hc))
    obtain ⟨v, hv⟩ := parseComma_runs h3 hc (by obtain ⟨t, rfl⟩ := overflowOpt_m hs; simp)
    have hp := loop_panics (seq_panics2 (k := fun _ => parseBaseOptionalParam) hv (parseBaseOptionalParam_panics h4 hs))
    have hloop := (optTail_loop ht (comma_noDigit hc) h2).2 hp
    exact orElse_panics (seq_panics2 (parseBaseOptionalParam_runs h1 hw (optTail_noDigit ht (comma_noDigit hc))) (seq_panics (star_panics hloop)))

theorem setOpts_ascii {os : List LenOpt} {w : Bytes} (h : SetOpts os w) : Ascii w := by
  cases h with
  | absent => exact ascii_nil
  | present os c t hc ht => exact ascii_append.mpr ⟨comma_ascii hc, optList_ascii ht⟩

theorem intOpts_ascii {os : List LenOpt} {w : Bytes} (h : IntOpts os w) : Ascii w := by
  cases h with
  | absent => exact ascii_nil
  | present os t ht => exact ascii_append.mpr ⟨ascii_append.mpr ⟨by decide, optList_ascii ht⟩, by decide⟩

theorem setOpts_runs {os : List LenOpt} {w : Bytes} (h : At inp p (w ++ rest)) (hw : SetOpts os w) (hr : ParenNext rest) :
    ∃ v, Runs parseSetOptionalParams.opt inp p (p + w.length) v ∧ ((v = none ∧ os = []) ∨ v = some (os.map ofOpt)) := by
  have hu := ascii_utf8 (setOpts_ascii hw)
  cases hw with
  | absent =>
    refine ⟨none, opt_none (action_fails (seq_fails (parseComma_fails h ?_))), .inl ⟨rfl, rfl⟩⟩
    obtain ⟨r, rfl⟩ := hr; simp
  | present os c t hc ht =>
    have h1 : At inp p (c ++ (t ++ rest)) := by simpa using h
    obtain ⟨v, hv⟩ := parseComma_runs h1 hc (by
      cases ht with
      | nil => obtain ⟨r, rfl⟩ := hr; simp
      | cons o os w t hw ht => obtain ⟨u, rfl⟩ := optText_m hw; simp)
    refine ⟨_, opt_some (action_runs h hu ?_ rfl), .inr rfl⟩
    exact (seq_runs hv (optionList_runs (h1.step (ascii_utf8 (comma_ascii hc))) ht hr)).cast (by simp; omega)

theorem setOpts_panics {c s : Bytes} (h : At inp p (c ++ s)) (hc : Comma c) (hs : OverflowList s) : Panics parseSetOptionalParams.opt inp p := by
  have hm : ∃ t, s = 109 :: t := by
    cases hs with
    | first s hs => exact overflowOpt_m hs
    | later o os w t c s hw _ _ _ => obtain ⟨u, rfl⟩ := optText_m hw; exact ⟨_, rfl⟩
  obtain ⟨v, hv⟩ := parseComma_runs h hc (by obtain ⟨t, rfl⟩ := hm; simp)
  exact opt_panics (action_panics (seq_panics2 hv (optionList_panics (h.step (ascii_utf8 (comma_ascii hc))) hs)))

theorem intOpts_runs {os : List LenOpt} {w : Bytes} (h : At inp p (w ++ rest)) (hw : IntOpts os w) (hr : ¬ b!"(" <+: rest) :
    ∃ v, Runs parseIntOptionalParams.opt inp p (p + w.length) v ∧ ((v = none ∧ os = []) ∨ v = some (os.map ofOpt)) := by
  have hu := ascii_utf8 (intOpts_ascii hw)
  cases hw with
  | absent => exact ⟨none, opt_none (action_fails (seq_fails (sliceEq_fails h hr))), .inl ⟨rfl, rfl⟩⟩
  | present os t ht =>
    have h1 : At inp p (b!"(" ++ (t ++ (b!")" ++ rest))) := by simpa using h
    have h2 := h1.step (ascii_utf8 (by decide))
    have h3 := h2.step (ascii_utf8 (optList_ascii ht))
    refine ⟨_, opt_some (action_runs h hu ?_ rfl), .inr rfl⟩
    exact (seq_runs (sliceEq_runs h1) (seq_runs (optionList_runs h2 ht ⟨_, rfl⟩) (seq_runs (sliceEq_runs h3) (pure_runs _)))).cast
      (by simp; omega)

theorem intOpts_panics {s : Bytes} (h : At inp p (b!"(" ++ s)) (hs : OverflowList s) : Panics parseIntOptionalParams.opt inp p :=
  opt_panics (action_panics (seq_panics2 (sliceEq_runs h) (seq_panics (optionList_panics (h.step (ascii_utf8 (by decide))) hs))))

/-! ### Parsers -/

theorem parseParserSet_fails (h : At inp p rest) (hr : ¬ b!"S" <+: rest) : Fails parseParserSet inp p :=
  action_fails (seq_fails (keyword_fails h fun ⟨t, e⟩ => hr ⟨b!"ET" ++ t, by rw [← e]; rfl⟩))

theorem parseParser_runs {a : Parser} {y : Bytes} (h : At inp p (y ++ rest)) (hy : ParserText a y) (hr : EndNext rest) :
    Utf8 y ∧ Runs parseParser inp p (p + y.length) a := by
  rcases hy with ⟨cs, os, n, ⟨h1, h2, w, x, h3, h4, rfl⟩, rfl⟩ | ⟨os, n, ⟨w, x, h3, h4, rfl⟩, rfl⟩
  · have a0 : At inp p (b!"SET" ++ (b!"(" ++ (b!"\"" ++ (cs ++ (b!"\"" ++ (w ++ (b!")" ++ (x ++ rest)))))))) := by simpa using h
    have a1 := a0.step (w := b!"SET") (ascii_utf8 (by decide))
    have a2 := a1.step (w := b!"(") (ascii_utf8 (by decide))
    have a3 := a2.step (w := b!"\"") (ascii_utf8 (by decide))
    have hcs : Utf8 cs := utf8_left a3.utf8 (by decide)
    have hq : Utf8 (b!"\"" ++ (cs ++ b!"\"")) := utf8_append (ascii_utf8 (by decide)) (utf8_append hcs (ascii_utf8 (by decide)))
    have a4 := (show At inp _ ((b!"\"" ++ (cs ++ b!"\"")) ++ (w ++ (b!")" ++ (x ++ rest)))) by simpa using a2).step hq
    have a5 := a4.step (ascii_utf8 (setOpts_ascii h3))
    have a6 := a5.step (w := b!")") (ascii_utf8 (by decide))
    obtain ⟨v, hv, hv'⟩ := setOpts_runs a4 h3 ⟨_, rfl⟩
    have hu : Utf8 (b!"SET" ++ (b!"(" ++ (b!"\"" ++ (cs ++ (b!"\"" ++ (w ++ (b!")" ++ x))))))) :=
      utf8_append (ascii_utf8 (by decide)) (utf8_append (ascii_utf8 (by decide)) (utf8_append (ascii_utf8 (by decide)) (utf8_append hcs
        (utf8_append (ascii_utf8 (by decide)) (utf8_append (ascii_utf8 (setOpts_ascii h3)) (utf8_append (ascii_utf8 (by decide))
          (ascii_utf8 (nameText_utf8 h4))))))))
    refine ⟨hu, orElse_left (action_runs (v := (cs, v, n)) h hu ?_ (by rw [newSet_eq cs n os v hv']))⟩
    exact (seq_runs (keyword_runs a0 (by decide)) (seq_runs (sliceEq_runs a1) (seq_runs (parseString_runs a2 h1 h2) (seq_runs hv
      (seq_runs (sliceEq_runs a5) (seq_runs (parserNameOpt_runs a6 h4 hr) (pure_runs _))))))).cast (by simp; omega)
  · have a0 : At inp p (b!"INT" ++ (w ++ (x ++ rest))) := by simpa using h
    have a1 := a0.step (w := b!"INT") (ascii_utf8 (by decide))
    have a2 := a1.step (ascii_utf8 (intOpts_ascii h3))
    obtain ⟨v, hv, hv'⟩ := intOpts_runs a1 h3 (by
      obtain ⟨r, rfl⟩ := hr
      cases h4 with
      | none => simp
      | some n hn => simp)
    have hu : Utf8 (b!"INT" ++ (w ++ x)) :=
      utf8_append (ascii_utf8 (by decide)) (utf8_append (ascii_utf8 (intOpts_ascii h3)) (ascii_utf8 (nameText_utf8 h4)))
    refine ⟨hu, orElse_right (parseParserSet_fails a0 (by simp)) (action_runs (v := (v, n)) h hu ?_ (by rw [newInt_eq n os v hv']))⟩
    exact (seq_runs (keyword_runs a0 (by decide)) (seq_runs hv (seq_runs (parserNameOpt_runs a2 h4 hr) (pure_runs _)))).cast (by simp; omega)

theorem parseParser_panics (h : At inp p rest) (ho : ParserOverflow rest) : Panics parseParser inp p := by
  rcases ho with ⟨s, rfl, hs⟩ | ⟨cs, c, s, h1, h2, h3, h4, rfl⟩
  · have a0 : At inp p (b!"INT" ++ (b!"(" ++ s)) := by simpa using h
    exact orElse_panics2 (parseParserSet_fails a0 (by simp)) (action_panics (seq_panics2 (keyword_runs a0 (by decide))
      (seq_panics (intOpts_panics (a0.step (ascii_utf8 (by decide))) hs))))
  · have a0 : At inp p (b!"SET" ++ (b!"(" ++ (b!"\"" ++ (cs ++ (b!"\"" ++ (c ++ s)))))) := by simpa using h
    have a1 := a0.step (w := b!"SET") (ascii_utf8 (by decide))
    have a2 := a1.step (w := b!"(") (ascii_utf8 (by decide))
    have a3 := a2.step (w := b!"\"") (ascii_utf8 (by decide))
    have hcs : Utf8 cs := utf8_left a3.utf8 (by decide)
    have hq : Utf8 (b!"\"" ++ (cs ++ b!"\"")) := utf8_append (ascii_utf8 (by decide)) (utf8_append hcs (ascii_utf8 (by decide)))
    have a4 := (show At inp _ ((b!"\"" ++ (cs ++ b!"\"")) ++ (c ++ s)) by simpa using a2).step hq
    exact orElse_panics (action_panics (seq_panics2 (keyword_runs a0 (by decide)) (seq_panics2 (sliceEq_runs a1)
      (seq_panics2 (parseString_runs a2 h1 h2) (seq_panics (setOpts_panics a4 h3 h4))))))

/-! ### Pieces -/

theorem parseParserGreedy_fails (h : At inp p rest) (hr : ¬ b!"%{G" <+: rest) : Fails parseParserGreedy inp p := by
  refine action_fails ?_
  by_cases hb : b!"%{" <+: rest
  · obtain ⟨t, rfl⟩ := hb
    refine seq_fails2 (sliceEq_runs h) (seq_fails (keyword_fails (h.step (ascii_utf8 (by decide))) ?_))
    rintro ⟨u, rfl⟩
    exact hr ⟨b!"REEDY" ++ u, by simp⟩
  · exact seq_fails (sliceEq_fails h hb)

theorem parsePieceLiteral_fails {r : Bytes} (h : At inp p (b!"%{" ++ r)) : Fails parsePieceLiteral inp p :=
  action_fails (parseLiteral_fails h (.inr ⟨r, rfl⟩))

theorem piece_literal_runs {w : Bytes} (h : At inp p (w ++ rest)) (hw : w ≠ []) (hn : NoBegin w) (hs : Stop rest) :
    Runs parsePatternPiece inp p (p + w.length) [.literal (unescape w)] := by
  have hnb := noBegin_prefix hw hn hs
  refine orElse_right (parseParserGreedy_fails h fun ⟨t, e⟩ => hnb ⟨b!"G" ++ t, by rw [← e]; simp⟩) (orElse_left ?_)
  exact action_runs h (utf8_left_stop h.utf8 hs) (parseLiteral_runs h hw hn hs) (by rw [unescape_of_parts])

theorem parserText_first {a : Parser} {y : Bytes} (h : ParserText a y) : ∃ c t, y = c :: t ∧ c ≠ 71 := by
  rcases h with ⟨cs, os, n, ⟨_, _, w, x, _, _, rfl⟩, rfl⟩ | ⟨os, n, ⟨w, x, _, _, rfl⟩, rfl⟩
  · exact ⟨_, _, rfl, by decide⟩
  · exact ⟨_, _, rfl, by decide⟩

theorem piece_parser_runs {a : Parser} {y : Bytes} (h : At inp p (b!"%{" ++ (y ++ (b!"}" ++ rest)))) (hy : ParserText a y) :
    Runs parsePatternPiece inp p (p + (b!"%{" ++ (y ++ b!"}")).length) [.parser a] := by
  have a1 := h.step (w := b!"%{") (ascii_utf8 (by decide))
  obtain ⟨hu, hrun⟩ := parseParser_runs a1 hy ⟨_, rfl⟩
  have a2 := a1.step hu
  obtain ⟨c, t, e, hc⟩ := parserText_first hy
  refine orElse_right (parseParserGreedy_fails h ?_) (orElse_right (parsePieceLiteral_fails h)
    (action_runs (v := a) (rest := rest) (by simpa using h) (utf8_append (ascii_utf8 (by decide)) (utf8_append hu (ascii_utf8 (by decide)))) ?_ rfl))
  · rintro ⟨u, e2⟩
    rw [e] at e2
    simp at e2
    exact hc e2.1.symm
  · exact (seq_runs (sliceEq_runs h) (seq_runs hrun (seq_runs (sliceEq_runs a2) (pure_runs _)))).cast (by simp; omega)

theorem piece_parser_panics {r : Bytes} (h : At inp p (b!"%{" ++ r)) (ho : ParserOverflow r) : Panics parsePatternPiece inp p := by
  refine orElse_panics2 (parseParserGreedy_fails h ?_) (orElse_panics2 (parsePieceLiteral_fails h)
    (action_panics (seq_panics2 (sliceEq_runs h) (seq_panics (parseParser_panics (h.step (ascii_utf8 (by decide))) ho)))))
  rintro ⟨u, e⟩
  rcases ho with ⟨s, rfl, _⟩ | ⟨cs, c, s, _, _, _, _, rfl⟩ <;> simp at e

theorem piece_greedy_runs {n : Option Bytes} {y w : Bytes} (h : At inp p (b!"%{" ++ (b!"GREEDY" ++ (y ++ (b!"}" ++ (w ++ rest)))))) (hy : NameText n y)
    (hw : NoBegin w) (hs : Stop rest) :
    Runs parsePatternPiece inp p (p + (b!"%{" ++ (b!"GREEDY" ++ (y ++ (b!"}" ++ w)))).length)
      (if w = [] then [.parser (.greedy { name := n, endString := none })]
        else [.parser (.greedy { name := n, endString := some w }), .literal w]) := by
  have a1 := h.step (w := b!"%{") (ascii_utf8 (by decide))
  have a2 := a1.step (w := b!"GREEDY") (ascii_utf8 (by decide))
  have a3 := a2.step (ascii_utf8 (nameText_utf8 hy))
  have a4 := a3.step (w := b!"}") (ascii_utf8 (by decide))
  have hu : Utf8 (b!"%{" ++ (b!"GREEDY" ++ (y ++ (b!"}" ++ w)))) :=
    utf8_append (ascii_utf8 (by decide)) (utf8_append (ascii_utf8 (by decide)) (utf8_append (ascii_utf8 (nameText_utf8 hy))
      (utf8_append (ascii_utf8 (by decide)) (utf8_left_stop a4.utf8 hs))))
  by_cases hn : w = []
  · subst hn
    refine orElse_left (action_runs (v := (n, none)) (rest := rest) (by simpa using h) hu ?_ (by simp [greedyTokens, newGreedy, Parser.setName]))
    exact (seq_runs (sliceEq_runs h) (seq_runs (keyword_runs a1 (by decide)) (seq_runs (parserNameOpt_runs a2 hy ⟨_, rfl⟩) (seq_runs (sliceEq_runs a3)
      (seq_runs (opt_none (parseLiteral_fails a4 hs)) (pure_runs _)))))).cast (by simp; omega)
  · refine orElse_left (action_runs (v := (n, some w)) (rest := rest) (by simpa using h) hu ?_ (by simp [greedyTokens, newGreedy, Parser.setName, hn]))
    exact (seq_runs (sliceEq_runs h) (seq_runs (keyword_runs a1 (by decide)) (seq_runs (parserNameOpt_runs a2 hy ⟨_, rfl⟩) (seq_runs (sliceEq_runs a3)
      (seq_runs (opt_some (parseLiteral_runs a4 hn hw hs)) (pure_runs _)))))).cast (by simp; omega)

theorem elemText_stop {e : Elem} {w : Bytes} (h : ElemText e w) (hl : e.isLiteral = false) : b!"%{" <+: w := by
  cases h with
  | literal => simp [Elem.isLiteral] at hl
  | int os n w x _ _ => exact ⟨_, by simp; rfl⟩
  | set cs os n w x _ _ _ _ => exact ⟨_, by simp; rfl⟩
  | greedy n x _ => exact ⟨_, by simp; rfl⟩

theorem written_stop {es : List Elem} {s : Bytes} (h : Written es s) (hl : startsLiteral es = false) (hr : Stop rest) : Stop (s ++ rest) := by
  cases h with
  | nil => exact hr
  | cons e es w s hw _ _ =>
    obtain ⟨t, rfl⟩ := elemText_stop hw (by simpa [startsLiteral] using hl)
    exact .inr ⟨t ++ (s ++ rest), by simp⟩

/-- The loop over the pieces gets through well-formed text. -/
theorem pieces_loop (hr : Stop rest) : ∀ (k : Nat) {es : List Elem} {s : Bytes}, es.length ≤ k → Written es s → ∀ {p}, At inp p (s ++ rest) →
    ∃ vs : List (List Token), vs.flatten = tokens es ∧ (es ≠ [] → vs ≠ []) ∧
    LoopVia parsePatternPiece inp p (p + s.length) vs := by
  intro k
  induction k with
  | zero =>
    intro es s hk hs p h
    have : es = [] := List.eq_nil_of_length_eq_zero (by omega)
    subst this
    cases hs
    exact ⟨[], rfl, by simp, via_refl _ _ _⟩
  | succ k ih =>
    intro es s hk hs p h
    -- one piece followed by the rest of the elements
    have step : ∀ {es' : List Elem} {w s' : Bytes} {v : List Token}, es'.length ≤ k → Written es' s' → s = w ++ s' → w ≠ [] → Utf8 w →
        Runs parsePatternPiece inp p (p + w.length) v → tokens es = v ++ tokens es' →
        ∃ vs : List (List Token), vs.flatten = tokens es ∧ (es ≠ [] → vs ≠ []) ∧
        LoopVia parsePatternPiece inp p (p + s.length) vs := by
      rintro es' w s' v hk' hs' rfl hw hu hrun ht
      rw [List.append_assoc] at h
      obtain ⟨vs, i1, i2, i3⟩ := ih hk' hs' (h.step hu)
      have hl := h.length
      have hpos := List.length_pos_iff.mpr hw
      have e : p + (w ++ s').length = p + w.length + s'.length := by simp; omega
      rw [e]
      exact ⟨v :: vs, by simp [i1, ht], by simp, via_step hrun (by omega) (by simp at hl; omega) i3⟩
    cases hs with
    | nil => exact ⟨[], rfl, by simp, via_refl _ _ _⟩
    | cons e es' w s' hw hs' hc =>
      have hk' : es'.length ≤ k := by simpa using hk
      have h1 : At inp p (w ++ (s' ++ rest)) := by simpa using h
      cases hw with
      | literal raw g1 g2 =>
        have hst := written_stop hs' (hc rfl) hr
        exact step hk' hs' rfl g1 (utf8_left_stop h1.utf8 hst) (piece_literal_runs h1 g1 g2 hst) (by simp [tokens])
      | int os n w x g1 g2 =>
        have hy : ParserText (intParser os n) (b!"INT" ++ (w ++ x)) := .inr ⟨os, n, ⟨w, x, g1, g2, rfl⟩, rfl⟩
        have h2 : At inp p (b!"%{" ++ ((b!"INT" ++ (w ++ x)) ++ (b!"}" ++ (s' ++ rest)))) := by simpa using h1
        have hu := (parseParser_runs (h2.step (ascii_utf8 (by decide))) hy ⟨_, rfl⟩).1
        exact step hk' hs' rfl (by simp) (by simpa using utf8_append (ascii_utf8 (s := b!"%{") (by decide)) (utf8_append hu (ascii_utf8 (s := b!"}") (by decide))))
          ((piece_parser_runs h2 hy).cast (by simp)) (by simp [tokens])
      | set cs os n w x g1 g2 g3 g4 =>
        have hy : ParserText (setParser cs os n) (b!"SET" ++ (b!"(" ++ (b!"\"" ++ (cs ++ (b!"\"" ++ (w ++ (b!")" ++ x))))))) :=
          .inl ⟨cs, os, n, ⟨g1, g2, w, x, g3, g4, rfl⟩, rfl⟩
        have h2 : At inp p (b!"%{" ++ ((b!"SET" ++ (b!"(" ++ (b!"\"" ++ (cs ++ (b!"\"" ++ (w ++ (b!")" ++ x))))))) ++ (b!"}" ++ (s' ++ rest)))) := by
          simpa using h1
        have hu := (parseParser_runs (h2.step (ascii_utf8 (by decide))) hy ⟨_, rfl⟩).1
        exact step hk' hs' rfl (by simp) (by simpa using utf8_append (ascii_utf8 (s := b!"%{") (by decide)) (utf8_append hu (ascii_utf8 (s := b!"}") (by decide))))
          ((piece_parser_runs h2 hy).cast (by simp)) (by simp [tokens])
      | greedy n x g1 =>
        have hau : Utf8 (b!"%{GREEDY" ++ x ++ b!"}") := ascii_utf8 (ascii_append.mpr ⟨ascii_append.mpr ⟨by decide, nameText_utf8 g1⟩, by decide⟩)
        by_cases hl : startsLiteral es' = true
        · cases hs' with
          | nil => simp [startsLiteral] at hl
          | cons e2 es2 w2 s2 hw2 hs2 hc2 =>
            cases hw2 with
            | literal raw f1 f2 =>
              have hst := written_stop hs2 (hc2 rfl) hr
              have h2 : At inp p (b!"%{" ++ (b!"GREEDY" ++ (x ++ (b!"}" ++ (w2 ++ (s2 ++ rest)))))) := by simpa using h1
              have h3 := (show At inp p ((b!"%{GREEDY" ++ x ++ b!"}") ++ (w2 ++ (s2 ++ rest))) by simpa using h1).step hau
              have hrun := piece_greedy_runs h2 g1 f2 hst
              rw [if_neg f1] at hrun
              exact step (w := b!"%{GREEDY" ++ x ++ b!"}" ++ w2) (by simp at hk'; omega) hs2 (by simp) (by simp)
                (utf8_append hau (utf8_left_stop h3.utf8 hst)) (hrun.cast (by simp)) (by simp [tokens])
            | _ => simp [startsLiteral, Elem.isLiteral] at hl
        · have hl' : startsLiteral es' = false := by simpa using hl
          have hst := written_stop hs' hl' hr
          have h2 : At inp p (b!"%{" ++ (b!"GREEDY" ++ (x ++ (b!"}" ++ ([] ++ (s' ++ rest)))))) := by simpa using h1
          have hrun := piece_greedy_runs h2 g1 (by unfold NoBegin; decide) hst
          rw [if_pos rfl] at hrun
          refine step hk' hs' rfl (by simp) hau (hrun.cast (by simp)) ?_
          have := tokens_append (es := [.greedy n]) (es' := es') (fun _ => hl')
          simpa [tokens] using this

theorem piece_end_fails (h : At inp p []) : Fails parsePatternPiece inp p :=
  orElse_fails (parseParserGreedy_fails h (by simp)) (orElse_fails (action_fails (parseLiteral_fails h (.inl rfl)))
    (action_fails (seq_fails (sliceEq_fails h (by simp)))))

/-- Pattern strings compile. -/
theorem compile_complete {toks : List Token} (hu : Utf8 inp) (h : PatternString inp toks) : compile inp = .ok (.ok toks) := by
  obtain ⟨es, h1, h2, rfl⟩ := h
  have hat := At.start hu
  have hend : At inp inp.length [] := ⟨inp, by simp, rfl, hu, utf8_nil⟩
  obtain ⟨vs, i1, i2, i3⟩ := pieces_loop (rest := []) (.inl rfl) _ (Nat.le_refl _) h2 (p := 0) (by simpa using hat)
  have hrun : Runs parsePattern inp 0 (0 + inp.length) (tokens es) :=
    action_runs (rest := []) (by simpa using hat) hu
      (plus_runs (by simpa using via_runs i3 (loop_stop (piece_end_fails (by simpa using hend)))) (i2 h1)) (by rw [flattenVec_eq, i1])
  obtain ⟨st, e⟩ := hrun .new
  rw [compile, e]
  simp

/-- Overflowing options panic. -/
theorem compile_panics (hu : Utf8 inp) (h : Overflow inp) : compile inp = .error .unwrap := by
  have hat := At.start hu
  have : ∃ es a r, Written es a ∧ inp = a ++ (b!"%{" ++ r) ∧ ParserOverflow r := by
    cases h with
    | int es a s h1 h2 => exact ⟨es, a, b!"INT(" ++ s, h1, by simp, .inl ⟨s, rfl, h2⟩⟩
    | set es a cs c s h1 h2 h3 h4 h5 => exact ⟨es, a, b!"SET(\"" ++ cs ++ b!"\"" ++ c ++ s, h1, by simp, .inr ⟨cs, c, s, h2, h3, h4, h5, rfl⟩⟩
  obtain ⟨es, a, r, h1, rfl, h3⟩ := this
  have hst : Stop (b!"%{" ++ r) := .inr ⟨r, rfl⟩
  obtain ⟨vs, _, _, i3⟩ := pieces_loop hst _ (Nat.le_refl _) h1 hat
  have hrun : Panics parsePattern (a ++ (b!"%{" ++ r)) 0 :=
    action_panics (plus_panics (via_panics i3 (loop_panics (piece_parser_panics (hat.step (utf8_left_stop hu hst)) h3))))
  rw [compile, hrun]

theorem compile_ok_iff {toks : List Token} (hu : Utf8 inp) : compile inp = .ok (.ok toks) ↔ PatternString inp toks := by
  refine ⟨fun h => ?_, compile_complete hu⟩
  rcases compile_sound hu with ⟨t, h1, h2⟩ | ⟨e, h1, _⟩ | ⟨h1, _⟩
  · rw [h] at h1; simp at h1; rw [h1]; exact h2
  · rw [h] at h1; simp at h1
  · rw [h] at h1; simp at h1

theorem compile_panic_iff (hu : Utf8 inp) : (∃ e, compile inp = .error e) ↔ Overflow inp := by
  refine ⟨fun ⟨e, h⟩ => ?_, fun h => ⟨_, compile_panics hu h⟩⟩
  rcases compile_sound hu with ⟨t, h1, h2⟩ | ⟨e, h1, _⟩ | ⟨h1, h2⟩
  · rw [h] at h1; simp at h1
  · rw [h] at h1; simp at h1
  · exact h2

end Verif
