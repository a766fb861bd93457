import Verif.Lemmas.Parsed
import Verif.Lemmas.PrintsList
import Verif.Lemmas.StableFile
import Verif.Props.Comments
import Verif.Lemmas.Pieces
import Verif.Lemmas.Reread
import Verif.Lemmas.Utf8
import Verif.Model.Pipeline

/-!
# The bytes that are printed
-/

namespace Verif.Whole
open Verif.Syntax Verif.Parser Verif.Format
open Verif.LineEnding (encode replaceCrlf toCrlf infer findCrlf Setting Ending)

/-! ## Texts and bytes -/

theorem utf8_encode (s : String) : utf8 s = encode s.toList := by
  unfold utf8
  rw [← String.utf8Encode_toList]
  simp [List.utf8Encode, encode]

theorem ofUtf8_utf8 {bs : List Byte} {s : String} (h : ofUtf8 bs = some s) : utf8 s = bs := by
  unfold ofUtf8 String.fromUTF8? at h
  split at h
  · cases h; rfl
  · cases h

theorem bytes_encode (cs : List Char) : (⟨⟨encode cs⟩⟩ : ByteArray) = cs.utf8Encode := by
  apply ByteArray.ext
  simp [List.utf8Encode, encode]

theorem ofUtf8_encode (cs : List Char) : ofUtf8 (encode cs) = some (String.ofList cs) := by
  have hv : (⟨⟨encode cs⟩⟩ : ByteArray).IsValidUTF8 := ⟨cs, bytes_encode cs⟩
  unfold ofUtf8 String.fromUTF8?
  rw [dif_pos hv]
  congr 1
  apply String.toByteArray_inj.1
  rw [String.toByteArray_ofList]
  exact bytes_encode cs

/-- Bytes of a text. -/
def Utf8 (bs : List Byte) : Prop := ∃ cs : List Char, bs = encode cs

theorem Utf8.append {a b : List Byte} : Utf8 a → Utf8 b → Utf8 (a ++ b) := by
  rintro ⟨x, rfl⟩ ⟨y, rfl⟩
  exact ⟨x ++ y, by simp [encode]⟩

theorem Utf8.ascii {bs : List Byte} (h : ∀ b ∈ bs, b.toNat < 128) : Utf8 bs := by
  induction bs with
  | nil => exact ⟨[], rfl⟩
  | cons b bs ih =>
    refine Utf8.append (a := [b]) ⟨[Char.ofNat b.toNat], ?_⟩ (ih fun b hb => h b (List.mem_cons_of_mem _ hb))
    have hb := h b (by simp)
    obtain ⟨n, hn⟩ : ∃ n, n = b.toNat := ⟨_, rfl⟩
    have hb' : b = UInt8.ofNat n := by rw [hn]; simp
    have key : ∀ n, n < 128 → [UInt8.ofNat n] = encode [Char.ofNat n] := by decide +kernel
    rw [← hn, hb']
    exact key n (by omega)

theorem toCrlf_encode (cs : List Char) : toCrlf 13 10 (encode cs) = encode (toCrlf '\r' '\n' cs) := by
  induction cs with
  | nil => rfl
  | cons c cs ih =>
    have h1 : toCrlf (13 : Byte) 10 (encode (c :: cs)) =
        toCrlf 13 10 (String.utf8EncodeChar c) ++ toCrlf 13 10 (encode cs) := by
      simp [LineEnding.encode_cons, toCrlf]
    have h2 : toCrlf '\r' '\n' (c :: cs) = toCrlf '\r' '\n' [c] ++ toCrlf '\r' '\n' cs := by simp [toCrlf]
    have h3 : ∀ a b, encode (a ++ b) = encode a ++ encode b := by simp [encode]
    rw [h1, h2, h3, ih]
    congr 1
    by_cases hc : c = '\n'
    · subst hc; decide
    · have h4 := LineEnding.lf_notMem c hc
      have h5 : ∀ bs : List Byte, 10 ∉ bs → toCrlf 13 10 bs = bs := by
        intro bs
        induction bs with
        | nil => intro _; rfl
        | cons b bs ih =>
          intro h
          simp only [List.mem_cons, not_or] at h
          have := ih h.2
          unfold toCrlf at this ⊢
          rw [List.flatMap_cons, if_neg (fun e => h.1 e.symm), this]; rfl
      rw [h5 _ h4]
      simp [toCrlf, hc, encode]

theorem Utf8.withEnding {bs : List Byte} (e : Ending) : Utf8 bs → Utf8 (withEnding e bs) := by
  rintro ⟨cs, rfl⟩
  cases e
  · exact ⟨cs, rfl⟩
  · exact ⟨_, toCrlf_encode cs⟩

theorem lf_withEnding {bs : List Byte} (h : 13 ∉ bs) (e : Ending) : lf (withEnding e bs) = bs := by
  cases e
  · exact lf_no13 h
  · exact LineEnding.replaceCrlf_toCrlf _ _ (by decide) bs

/-! ## What is printed -/

/-- A property of printed text. -/
structure Closed (unit : List Byte) (Q : List Byte → Prop) : Prop where
  nil : Q []
  append : ∀ {a b}, Q a → Q b → Q (a ++ b)
  newline : Q [10]
  unit : Q unit
  fixed : Fixed Q

variable {unit : List Byte} {Q : List Byte → Prop}

theorem Closed.cons10 (h : Closed unit Q) {a : List Byte} (ha : Q a) : Q (10 :: a) := h.append h.newline ha

theorem Closed.space (h : Closed unit Q) : Q [32] := h.fixed.blank 1

theorem render_closed (h : Closed unit Q) : ∀ {es : List El}, (∀ e ∈ es, e.sane Q) → Q (render es)
  | [], _ => h.nil
  | e :: es, he => by
    have ih := render_closed h (es := es) fun e h' => he e (List.mem_cons_of_mem _ h')
    have h0 := he e (by simp)
    cases e <;> rw [render] <;> first
      | exact h.append h0 ih
      | exact h.cons10 ih
      | exact h.append h.space ih

/-- Indentation, or a text that is printed. -/
def Indented (Q : List Byte → Prop) (e : El) : Prop :=
  (∃ n, e = .blank (List.replicate n 9)) ∨ e = .blank [32] ∨ (∀ bs, e ≠ .blank bs) ∧ e.sane Q

theorem reindent_sane (h : Closed unit Q) {es : List El} (he : ∀ e ∈ es, Indented Q e) :
    ∀ e ∈ reindent unit es, e.sane Q := by
  intro e hm
  unfold reindent at hm
  obtain ⟨e', h1, rfl⟩ := List.mem_map.1 hm
  rcases he e' h1 with ⟨n, rfl⟩ | rfl | ⟨h2, h3⟩
  · clear hm h1
    show Q _
    induction n with
    | zero => exact h.nil
    | succ n ih => exact h.append h.unit ih
  · exact h.space
  · cases e' with
    | blank bs => exact absurd rfl (h2 bs)
    | _ => exact h3

/-- Postponed comments. -/
def Waits (Q : List Byte → Prop) (s : PState) : Prop := ∀ c ∈ s.sfx, Q c.2.2

theorem pending_indented (s : PState) : ∀ e ∈ (if s.ind = 0 then [] else [.blank (List.replicate s.ind 9)]) ++
    (if s.space then [.blank [32]] else []), Indented Q e := by
  intro e he
  rcases List.mem_append.1 he with he | he
  · split at he
    · cases he
    · rw [List.mem_singleton] at he; exact .inl ⟨_, he⟩
  · split at he
    · rw [List.mem_singleton] at he; exact .inr (.inl he)
    · cases he

theorem printText_indented (s : PState) {e : El} (he : (∀ bs, e ≠ .blank bs) ∧ e.sane Q) :
    ∀ e' ∈ (printText s e).1, Indented Q e' := by
  intro e' h
  rcases List.mem_append.1 h with h | h
  · exact pending_indented s e' h
  · rw [List.mem_singleton] at h; subst h; exact .inr (.inr he)

theorem printNl_indented (s : PState) (b : Bool) (i : Nat) : ∀ e ∈ (printNl s b i).1, Indented Q e := by
  intro e h
  have : e = .rnl := by
    unfold printNl at h
    rcases List.mem_append.1 h with h | h <;> split at h <;> simp_all
  subst this
  exact .inr (.inr ⟨nofun, trivial⟩)

theorem printSuffix_indented (s : PState) {c : Option Bool × Nat × List Byte} (hc : Q c.2.2) :
    ∀ e ∈ (printSuffix s c).1, Indented Q e := by
  obtain ⟨l, i, t⟩ := c
  cases l with
  | none => exact printText_indented _ ⟨nofun, hc⟩
  | some b =>
    intro e h
    rcases List.mem_append.1 h with h | h
    · exact printNl_indented s b i e h
    · exact printText_indented (printNl s b i).2 (e := .comment t) ⟨nofun, hc⟩ e h

theorem printSuffix_sfx (s : PState) (c : Option Bool × Nat × List Byte) : (printSuffix s c).2.sfx = s.sfx := by
  obtain ⟨l, i, t⟩ := c
  cases l <;> rfl

theorem printSuffixes_indented : ∀ (cs : List (Option Bool × Nat × List Byte)) (s : PState), (∀ c ∈ cs, Q c.2.2) →
    (∀ e ∈ (printSuffixes s cs).1, Indented Q e) ∧ (printSuffixes s cs).2.sfx = s.sfx
  | [], s, _ => ⟨nofun, rfl⟩
  | c :: cs, s, h => by
    have ih := printSuffixes_indented cs (printSuffix s c).2 fun c hc => h c (List.mem_cons_of_mem _ hc)
    refine ⟨fun e he => ?_, ih.2.trans (printSuffix_sfx s c)⟩
    rcases List.mem_append.1 he with he | he
    · exact printSuffix_indented s (h c (by simp)) e he
    · exact ih.1 e he

theorem flush_indented {s : PState} (h : Waits Q s) : (∀ e ∈ (flush s).1, Indented Q e) ∧ (flush s).2.sfx = [] :=
  printSuffixes_indented s.sfx _ h

theorem printEl_waits {s : PState} (h : Waits Q s) {e : El} (he : e.sane Q) : Waits Q (printEl s e).2 := by
  cases e with
  | suffix l i t =>
    intro c hc
    rcases List.mem_append.1 hc with hc | hc
    · exact h c hc
    · rw [List.mem_singleton] at hc; subst hc; exact he
  | nl b i =>
    intro c hc
    have h1 : (printEl s (.nl b i)).2.sfx = (flush s).2.sfx := rfl
    rw [h1, (flush_indented h).2] at hc
    cases hc
  | _ => exact h

theorem printEl_indented {s : PState} (h : Waits Q s) {e : El} (he : e.sane Q) (hb : ∀ bs, e ≠ .blank bs) :
    ∀ e' ∈ (printEl s e).1, Indented Q e' := by
  cases e with
  | suffix l i t => nofun
  | space => nofun
  | nl b i =>
    intro e h'
    rcases List.mem_append.1 h' with h' | h'
    · exact (flush_indented h).1 e h'
    · exact printNl_indented (flush s).2 b i e h'
  | rnl => exact printText_indented _ ⟨nofun, trivial⟩
  | tok t => exact printText_indented _ ⟨nofun, he⟩
  | comment t => exact printText_indented _ ⟨nofun, he⟩
  | blank bs => exact absurd rfl (hb bs)

theorem printUnit_sane (hq : Closed unit Q) : ∀ (es : List El) (s : PState), (∀ e ∈ es, e.sane Q) → Waits Q s →
    ∀ e ∈ printUnit unit s es, e.sane Q
  | [], s, _, hs => by
    rw [printUnit]
    exact reindent_sane hq (flush_indented hs).1
  | e :: es, s, h, hs => by
    have ih := printUnit_sane hq es (printEl s e).2 (fun e he => h e (List.mem_cons_of_mem _ he))
      (printEl_waits hs (h e (by simp)))
    by_cases hb : ∃ bs, e = .blank bs
    · obtain ⟨bs, rfl⟩ := hb
      rw [printUnit]
      intro e' he'
      rcases List.mem_append.1 he' with he' | he'
      · refine reindent_sane hq ?_ e' he'
        have h1 : (printEl s (.blank bs)).1 = ((if s.ind = 0 then [] else [.blank (List.replicate s.ind 9)]) ++
            (if s.space then [.blank [32]] else [])) ++ [.blank bs] := rfl
        rw [h1, List.dropLast_concat]
        exact pending_indented s
      · rcases List.mem_cons.1 he' with rfl | he'
        · exact h _ (by simp)
        · exact ih e' he'
    · have hb' : ∀ bs, e ≠ .blank bs := fun bs h => hb ⟨bs, h⟩
      rw [printUnit]
      · intro e' he'
        rcases List.mem_append.1 he' with he' | he'
        · exact reindent_sane hq (printEl_indented hs (h e (by simp)) hb') e' he'
        · exact ih e' he'
      · exact hb'

/-! ## Parsed files -/

/-- What holds of the tokens, comments and blanks of a file and is kept by putting texts together holds of the
formatted file. -/
theorem formatted_closed (hq : Closed unit Q) (o : Opts) {pick : Doc → List El} (hp : Chooses pick) (x : Root)
    (ht : ∀ t ∈ x.es.tokens, TokSane Q t) (he : ∀ p ∈ x.eof.leading, p.kind ≠ .newline → Q p.text) :
    Q (formatted o pick unit x) := by
  have hpr := hp _ (Doc.solid.prints (fmtRoot_solid o x.attach) .expanded 0)
  have hL := (prints_lays _ _ _ _ hpr).2.1 rfl
  have hall : ∀ c ∈ x.sourceComments, Q c := by
    intro c hc
    unfold Root.sourceComments commentTexts at hc
    obtain ⟨q, hq1, rfl⟩ := List.mem_map.1 hc
    obtain ⟨hq2, hk⟩ := List.mem_filter.1 hq1
    have hk : q.kind ≠ .newline := by rw [beq_iff_eq.1 hk]; decide
    rcases List.mem_append.1 hq2 with h | h
    · obtain ⟨t, h1, h2⟩ := List.mem_flatMap.1 h
      rcases List.mem_append.1 h2 with h2 | h2
      · exact (ht t h1).leading q h2 hk
      · exact (ht t h1).trailing q h2 hk
    · exact he q h hk
  have hcom := C37_attached_once x
  refine render_closed hq (printUnit_sane hq _ {} (lays_sane hq.fixed (fmtRoot_sane hq.fixed o x.attach ?_ he ?_ ?_) hL)
    nofun)
  · rw [attach_tokens]; exact ht
  · exact fun c hc => hall _ (hcom.mem_iff.1 (List.mem_append_left _ (List.mem_map.2 ⟨c, hc, rfl⟩)))
  · exact fun c hc => hall _ (hcom.mem_iff.1 (List.mem_append_right _ (List.mem_map.2 ⟨c, hc, rfl⟩)))

theorem closed_no13 (h : 13 ∉ unit) : Closed unit (13 ∉ ·) where
  nil := nofun
  append h1 h2 := by simp only [List.mem_append, not_or]; exact ⟨h1, h2⟩
  newline := by decide
  unit := h
  fixed := ⟨by decide, by decide, by decide, by decide, fun n h => by
    have := List.eq_of_mem_replicate h; revert this; decide⟩

theorem closed_utf8 (h : Utf8 unit) : Closed unit Utf8 where
  nil := ⟨[], rfl⟩
  append := Utf8.append
  newline := .ascii (by decide)
  unit := h
  fixed := ⟨.ascii (by decide), .ascii (by decide), .ascii (by decide), .ascii (by decide), fun n => .ascii fun b hb => by
    rw [List.eq_of_mem_replicate hb]; decide⟩

variable {text : List Byte} {root : TsNode} {p : Exprs} {x : Root}

theorem Parsed.no13 (ha : Agrees text root p) (hx : Parsed text root p x) (hl : LineEnds text root) (o : Opts)
    {pick : Doc → List El} (hp : Chooses pick) (hu : 13 ∉ unit) : 13 ∉ formatted o pick unit x := by
  refine formatted_closed (closed_no13 hu) o hp x (fun t ht => ?_) fun q hq hk =>
    (hx.fine ha hl (t := x.eof) (by simp [allTokens]) (List.mem_append_left _ hq)).2 hk
  have hm : t ∈ allTokens x := List.mem_append_left _ ht
  have h1 := hx.token ha hl ht
  refine ⟨?_, fun q hq hk => (hx.fine ha hl hm (List.mem_append_left _ hq)).2 hk,
    fun q hq hk => (hx.fine ha hl hm (List.mem_append_right _ hq)).2 hk⟩
  rw [outTok_lf h1.1]
  exact lf_lined h1.2

theorem Parsed.utf8 (ha : Agrees text root p) (hx : Parsed text root p x) (hl : LineEnds text root) (o : Opts)
    {pick : Doc → List El} (hp : Chooses pick) (hu : Utf8 unit)
    (hc : ∀ l ∈ leaves root, Utf8 (between text l.start l.stop)) : Utf8 (formatted o pick unit x) := by
  have hpiece : ∀ t ∈ allTokens x, ∀ q ∈ t.leading ++ t.trailing, q.kind ≠ .newline → Utf8 q.text := by
    intro t ht q hq hk
    cases hk' : q.kind with
    | newline => exact absurd hk' hk
    | whitespace =>
      have h := hx.pieces t ht q hq
      unfold PieceOk at h
      rw [hk'] at h
      refine .ascii fun b hb => ?_
      have h1 := (h b hb).1
      revert h1
      simp only [isGapByte, List.contains_eq_mem, List.mem_cons, List.not_mem_nil, or_false, decide_eq_true_eq]
      rintro (rfl | rfl | rfl | rfl | rfl | rfl | rfl) <;> decide
    | comment =>
      have hm : q.text ∈ ((allTokens x).map tokenComments).flatten := by
        refine List.mem_flatten.2 ⟨tokenComments t, List.mem_map_of_mem ht, ?_⟩
        unfold tokenComments pieceComments
        exact List.mem_map_of_mem (List.mem_filter.2 ⟨hq, by simp [hk']⟩)
      rw [hx.comments] at hm
      obtain ⟨c, hcm, he⟩ := List.mem_map.1 hm
      unfold leafComments at hcm
      obtain ⟨l, hl, rfl⟩ := List.mem_map.1 hcm
      rw [← he]
      exact hc l (List.mem_filter.1 hl).1
  refine formatted_closed (closed_utf8 hu) o hp x (fun t ht => ?_) fun q hq hk =>
    hpiece x.eof (by simp [allTokens]) q (List.mem_append_left _ hq) hk
  have hm : t ∈ allTokens x := List.mem_append_left _ ht
  refine ⟨?_, fun q hq => hpiece t hm q (List.mem_append_left _ hq), fun q hq => hpiece t hm q (List.mem_append_right _ hq)⟩
  rw [outTok_lf (hx.token ha hl ht).1]
  have h1 : kt t ∈ Verif.Parser.leafTexts text (leaves root) := by
    rw [toks_root ha.written, ← hx.tokens]
    exact List.mem_map_of_mem ht
  unfold Verif.Parser.leafTexts at h1
  obtain ⟨l, h2, h3⟩ := List.mem_map.1 h1
  have h4 := hc l (List.mem_filter.1 h2).1
  unfold kt at h3
  simp only [Prod.mk.injEq] at h3
  rw [h3.2] at h4
  obtain ⟨cs, h4⟩ := h4
  rw [h4]
  exact ⟨_, LineEnding.replaceCrlf_encode cs⟩

/-! ## Line endings of formatted texts -/

theorem infer_lf {cs : List Char} (h : '\r' ∉ cs) : infer '\r' '\n' cs = .lf := by
  unfold infer
  rw [(LineEnding.findCrlf_none_iff _ _ _).2]
  rintro ⟨a, b, rfl⟩
  simp at h

/-- Formatted texts get the same line ends again, also if these are inferred from the text. -/
theorem withEnding_again {bs : List Byte} (h : 13 ∉ bs) (s : Setting) (windows : Bool) (src : List Char) {new : String}
    (hn : utf8 new = withEnding (s.finalize windows src) bs) :
    withEnding (s.finalize windows new.toList) bs = withEnding (s.finalize windows src) bs := by
  cases s with
  | auto =>
    show withEnding (infer '\r' '\n' new.toList) bs = withEnding (infer '\r' '\n' src) bs
    have hn : utf8 new = withEnding (infer '\r' '\n' src) bs := hn
    rw [utf8_encode] at hn
    cases he : infer '\r' '\n' src with
    | lf =>
      rw [he] at hn
      rw [infer_lf]
      intro hm
      have hn : encode new.toList = bs := hn
      rw [← hn] at h
      exact h (List.mem_flatMap.2 ⟨_, hm, by decide⟩)
    | crlf =>
      cases he' : infer '\r' '\n' new.toList with
      | crlf => rfl
      | lf =>
        rw [he] at hn
        have hf : findCrlf '\r' '\n' new.toList = none := by
          unfold infer at he'
          split at he'
          · cases he'
          · assumption
        have h1 := LineEnding.replaceCrlf_encode new.toList
        rw [LineEnding.findCrlf_none _ _ _ hf, hn] at h1
        exact (lf_withEnding h .crlf).symm.trans h1
  | _ => rfl

end Verif.Whole
