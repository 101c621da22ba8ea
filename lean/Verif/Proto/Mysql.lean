import Verif.Proto.Http
import Verif.Tools.Sql
/-
Model of collector/pkg/component/analyzer/network/protocol/mysql.
Property C64 (statements and error codes) and the MySQL part of C21.
-/
namespace Kindling.Proto.Mysql
open Kindling Kindling.Agg Kindling.Proto
open Kindling.Proto.Redis (children_nil)

def kSql : Bytes := bs "sql"
def kErrCode : Bytes := bs "sql_error_code"
def kErrMsg : Bytes := bs "sql_error_msg"
def kContentKey : Bytes := bs "content_key"
def kIsError : Bytes := bs "is_error"
def kErrorType : Bytes := bs "error_type"
def kOneway : Bytes := bs "one_way"

/-- mysql_request.go:103-113 `sqlPrefixs`. -/
def sqlPrefixes : List Bytes :=
  [bs "select", bs "insert", bs "update", bs "delete", bs "drop", bs "create", bs "alter", bs "set", bs "commit"]

/-- mysql_request.go:115-124 `isSql` (ASCII letters only). -/
def isSql (s : Bytes) : Bool := sqlPrefixes.any (fun p => Sql.startsI p s)

/-- mysql_request.go:16-20 and mysql_response.go:15-19: shorter than `n` bytes. -/
def shorter (n : Nat) : FastFail := fun m => pure (decide (m.data.length < n))

/-- mysql_request.go:22-26, mysql_response.go:21-25. -/
def goOn : ParseFn := fun m => pure ((true, false), m)

/-- mysql_request.go:33-37, 62-66, 90-94: `Data[4]` differs. -/
def commandNot (c : UInt8) : FastFail := fun m => do
  let b ← idx m.data 4
  pure (decide (b ≠ c))

/-- mysql_request.go:41-48, 76-83: the common tail of both statements. -/
def statement (m : Msg) (sql : Bytes) : Res ((Bool × Bool) × Msg) :=
  if !isSql sql then pure ((false, true), m)
  else pure ((true, true), (m.add kSql (.str (Text.formatUtf8 sql))).add kContentKey (.str (Text.formatUtf8 (Sql.parseStatement sql))))

/-- mysql_request.go:39-49 `parseMysqlPrepare`. -/
def parsePrepare : ParseFn := fun m => do
  let sql ← slice m.data 5 m.data.length
  statement m sql

/-- mysql_request.go:71-75: the prefix of a query without parameters. -/
def dropNoParams (sql : Bytes) : Bytes :=
  match sql with
  | 0 :: 1 :: b :: r => b :: r
  | _ => sql

/-- mysql_request.go:68-84 `parseMysqlQuery`. -/
def parseQuery : ParseFn := fun m => do
  let sql ← slice m.data 5 m.data.length
  statement m (dropNoParams sql)

/-- mysql_request.go:96-101 `parseMysqlQuit`. -/
def parseQuit : ParseFn := fun m => pure ((true, true), m.add kOneway (.bool true))

/-- mysql_parser.go:13-16. -/
def requestTree : Tree := ⟨shorter 5, goOn, [⟨commandNot 22, parsePrepare⟩, ⟨commandNot 3, parseQuery⟩, ⟨commandNot 1, parseQuit⟩]⟩

/-- mysql_response.go:47-52: the error text. -/
def errorText (d : Bytes) : Res Bytes := do
  let marker ← if d.length > 14 then (idx d 8 >>= fun b => pure (decide (b = 35))) else pure false
  if marker then do
    let a ← slice d 8 13
    let b ← slice d 13 d.length
    pure (a ++ 58 :: b)
  else slice d 8 d.length

/-- mysql_response.go:43-62 `parseMysqlErr`.  `Data[5:7]` of six bytes is taken to panic; if the array below has
room behind, `Data[8:]` panics instead. -/
def parseErr : ParseFn := fun m => do
  let w ← slice m.data 5 7
  let lo ← idx w 0
  let hi ← idx w 1
  let code : Nat := lo.toNat ||| hi.toNat <<< 8
  let text ← errorText m.data
  let m1 := (m.add kErrCode (.int code)).add kErrMsg (.str (Text.formatUtf8 text))
  if code ≠ 0 then pure ((true, true), (m1.add kIsError (.bool true)).add kErrorType (.int 3))
  else pure ((true, true), m1)

/-- mysql_response.go:84-88 `fastfailMysqlOk`. -/
def notOk : FastFail := fun m => do
  let b ← idx m.data 4
  pure (decide (b ≠ 0 ∧ b ≠ 0xfe))

/-- mysql_response.go:90-94, 110-114, 142-146: nothing to do. -/
def accept : ParseFn := fun m => pure ((true, true), m)

/-- mysql_response.go:136-140 `fastfailMysqlResultSet`. -/
def noSql : FastFail := fun m => pure (!m.has kSql)

/-- mysql_parser.go:18-22. -/
def responseTree : Tree :=
  ⟨shorter 6, goOn, [⟨commandNot 0xff, parseErr⟩, ⟨notOk, accept⟩, ⟨commandNot 0xfe, accept⟩, ⟨noSql, accept⟩]⟩

def parseRequest (d : Bytes) : Res (Bool × Msg) := requestTree.single ⟨d, 0, []⟩
def parseResponse (d : Bytes) (a : Attrs) : Res (Bool × Msg) := responseTree.single ⟨d, 0, a⟩

/-! ## Requests -/

theorem keys_differ : kContentKey ≠ kSql ∧ kErrMsg ≠ kErrCode ∧ kIsError ≠ kErrCode ∧ kErrorType ≠ kErrCode ∧ kIsError ≠ kErrMsg ∧ kErrorType ≠ kErrMsg ∧
    kErrorType ≠ kIsError := by decide +kernel

theorem tail_slice (h : Bytes) (hh : h.length = 4) (c : UInt8) (r : Bytes) :
    slice (h ++ c :: r) 5 (h ++ c :: r).length = .ok r ∧ idx (h ++ c :: r) 4 = .ok c ∧ (h ++ c :: r).length = r.length + 5 := by
  have hl : (h ++ c :: r).length = r.length + 5 := by simp [hh]; omega
  refine ⟨?_, get_mid h c r 4 (by omega), hl⟩
  rw [slice_ok (by omega)]
  congr 1
  rw [show h ++ c :: r = (h ++ [c]) ++ r by simp]
  have e : Int.toNat 5 = (h ++ [c]).length := by simp [hh]
  rw [e, List.drop_left, List.take_of_length_le]
  have : ((h ++ [c]) ++ r).length = r.length + 5 := by simp [hh]; omega
  rw [this]; omega

theorem leaf_skip {c b : UInt8} {p : ParseFn} {m : Msg} {ls : List Leaf} (hi : idx m.data 4 = .ok b) (h : b ≠ c) :
    runChildren (⟨commandNot c, p⟩ :: ls) m = runChildren ls m := by
  simp [runChildren, Leaf.run, commandNot, hi, h]

/-- Texts starting with a statement word. -/
def Statement (sql : Bytes) : Prop := ∃ p ∈ ["select", "insert", "update", "delete", "drop", "create", "alter", "set", "commit"].map bs, ∃ w r, sql = w ++ r ∧ w.map Sql.lower = p

theorem isSql_iff (sql : Bytes) : isSql sql = true ↔ Statement sql := by
  simp only [isSql, List.any_eq_true, Statement, Sql.startsI_iff]
  constructor
  · rintro ⟨p, hp, r, hr⟩
    exact ⟨p, hp, sql.take p.length, sql.drop p.length, by simp, by rw [List.map_take, hr, List.take_left]⟩
  · rintro ⟨p, hp, w, r, rfl, h⟩
    exact ⟨p, hp, r.map Sql.lower, by simp [h]⟩

/-- C64: the text of a query or of a statement to prepare is reported, and the content key is the merged statement. -/
theorem mysql_statement_parsed (h : Bytes) (hh : h.length = 4) (c : UInt8) (hc : c = 22 ∨ c = 3) (pre sql : Bytes)
    (hpre : pre = [] ∨ (c = 3 ∧ pre = [0, 1])) (hs : Statement sql) :
    ∃ m, parseRequest (h ++ c :: (pre ++ sql)) = .ok (true, m) ∧
      AMap.get m.attrs (bs "sql") = some (.str (Text.formatUtf8 sql)) ∧
      AMap.get m.attrs (bs "content_key") = some (.str (Text.formatUtf8 (Sql.parseStatement sql))) ∧
      AMap.get m.attrs (bs "is_error") = none ∧ AMap.get m.attrs (bs "one_way") = none := by
  rw [show bs "sql" = kSql from rfl, show bs "content_key" = kContentKey from rfl] at *
  obtain ⟨t1, t2, t3⟩ := tail_slice h hh c (pre ++ sql)
  have hq := (isSql_iff sql).2 hs
  have hne : ∃ b r, sql = b :: r ∧ b ≠ 0 := by
    cases sql with
    | nil =>
      obtain ⟨p, hp, w, r, e, hw⟩ := hs
      have : w = [] := by cases w <;> simp at e ⊢
      subst this
      have : ([] : Bytes) ∉ sqlPrefixes := by decide +kernel
      exact absurd (by rw [← hw] at hp; exact hp) this
    | cons b r =>
      refine ⟨b, r, rfl, ?_⟩
      rintro rfl
      obtain ⟨p, hp, w, r', e, hw⟩ := hs
      cases w with
      | nil =>
        have : ([] : Bytes) ∉ sqlPrefixes := by decide +kernel
        exact absurd (by rw [← hw] at hp; exact hp) this
      | cons x y =>
        simp only [List.cons_append, List.cons.injEq] at e
        have : ∀ p ∈ sqlPrefixes, p.head? ≠ some 0 := by decide +kernel
        apply this p hp
        rw [← hw, ← e.1]; rfl
  have hdrop : dropNoParams (pre ++ sql) = sql ∨ c = 22 := by
    obtain ⟨b, r, rfl, hb⟩ := hne
    rcases hpre with rfl | ⟨_, rfl⟩
    · left
      simp only [List.nil_append, dropNoParams]
      split
      · rename_i heq; cases heq; exact absurd rfl hb
      · rfl
    · left; rfl
  have hpre22 : c = 22 → pre = [] := by
    intro e; rcases hpre with h | ⟨h, _⟩
    · exact h
    · rw [e] at h; cases h
  generalize hd : h ++ c :: (pre ++ sql) = d at *
  have hl : ¬ d.length < 5 := by omega
  refine ⟨(((⟨d, 0, []⟩ : Msg).add kSql (.str (Text.formatUtf8 sql))).add kContentKey (.str (Text.formatUtf8 (Sql.parseStatement sql)))), ?_, ?_, ?_, ?_, ?_⟩
  · simp only [parseRequest, Tree.single, Tree.run, requestTree, shorter, hl, decide_false, Res.pure_eq, Res.bind_ok, Bool.false_eq_true, ↓reduceIte, goOn,
      Bool.not_true, List.isEmpty_cons]
    rcases hc with rfl | rfl
    · have := hpre22 rfl
      subst this
      rw [List.nil_append] at t1
      simp [runChildren, Leaf.run, commandNot, t2, parsePrepare, t1, statement, hq]
    · rw [leaf_skip t2 (by decide)]
      have hdrop : dropNoParams (pre ++ sql) = sql := by
        rcases hdrop with h | h
        · exact h
        · cases h
      simp [runChildren, Leaf.run, commandNot, t2, parseQuery, t1, hdrop, statement, hq]
  · simp only [Msg.add]; rw [AMap.get_set_ne _ _ keys_differ.1, AMap.get_set_self]
  · simp only [Msg.add]; rw [AMap.get_set_self]
  · simp only [Msg.add]
    rw [AMap.get_set_ne _ _ (by decide +kernel), AMap.get_set_ne _ _ (by decide +kernel)]; rfl
  · simp only [Msg.add]
    rw [AMap.get_set_ne _ _ (by decide +kernel), AMap.get_set_ne _ _ (by decide +kernel)]; rfl

/-- C64: other texts are not taken for MySQL. -/
theorem mysql_other_text (h : Bytes) (hh : h.length = 4) (c : UInt8) (text : Bytes) (h1 : c ≠ 1)
    (hs : ¬ Statement text) (hs2 : ∀ t, text = 0 :: 1 :: t → ¬ Statement t) : parseRequest (h ++ c :: text) = .ok (false, ⟨h ++ c :: text, 0, []⟩) := by
  obtain ⟨t1, t2, t3⟩ := tail_slice h hh c text
  have hq : isSql text = false := by rw [Bool.eq_false_iff]; exact fun e => hs ((isSql_iff _).1 e)
  have hq2 : isSql (dropNoParams text) = false := by
    rw [Bool.eq_false_iff]
    intro e
    have := (isSql_iff _).1 e
    revert this
    simp only [dropNoParams]
    split
    · exact hs2 _ rfl
    · exact hs
  generalize hd : h ++ c :: text = d at *
  have hl : ¬ d.length < 5 := by omega
  simp only [parseRequest, Tree.single, Tree.run, requestTree, shorter, hl, decide_false, Res.pure_eq, Res.bind_ok, Bool.false_eq_true, ↓reduceIte, goOn,
      Bool.not_true, List.isEmpty_cons]
  have k3 : Leaf.run ⟨commandNot 1, parseQuit⟩ ⟨d, 0, []⟩ = .ok (.fail, ⟨d, 0, []⟩) := by simp [Leaf.run, commandNot, t2, h1]
  have k2 : Leaf.run ⟨commandNot 3, parseQuery⟩ ⟨d, 0, []⟩ = .ok (.fail, ⟨d, 0, []⟩) := by
    simp only [Leaf.run, commandNot, t2, Res.bind_ok, Res.pure_eq]
    split
    · rfl
    · simp [parseQuery, t1, statement, hq2]
  have k1 : Leaf.run ⟨commandNot 22, parsePrepare⟩ ⟨d, 0, []⟩ = .ok (.fail, ⟨d, 0, []⟩) := by
    simp only [Leaf.run, commandNot, t2, Res.bind_ok, Res.pure_eq]
    split
    · rfl
    · simp [parsePrepare, t1, statement, hq]
  simp [runChildren, k1, k2, k3]

/-! ## Responses -/

theorem err_attrs (m : Msg) (code : Nat) (text : Bytes) (r : Msg)
    (hr : r = if code ≠ 0 then (((m.add kErrCode (.int code)).add kErrMsg (.str text)).add kIsError (.bool true)).add kErrorType (.int 3)
      else ((m.add kErrCode (.int code)).add kErrMsg (.str text))) :
    AMap.get r.attrs kErrCode = some (.int code) ∧ AMap.get r.attrs kErrMsg = some (.str text) ∧
    AMap.get r.attrs kIsError = (if code ≠ 0 then some (.bool true) else AMap.get m.attrs kIsError) ∧
    AMap.get r.attrs kErrorType = (if code ≠ 0 then some (.int 3) else AMap.get m.attrs kErrorType) := by
  obtain ⟨_, s2, s3, s4, s5, s6, s7⟩ := keys_differ
  subst hr
  by_cases h : code ≠ 0
  · simp only [if_pos h, Msg.add]
    refine ⟨?_, ?_, ?_, ?_⟩
    · rw [AMap.get_set_ne _ _ s4, AMap.get_set_ne _ _ s3, AMap.get_set_ne _ _ s2, AMap.get_set_self]
    · rw [AMap.get_set_ne _ _ s6, AMap.get_set_ne _ _ s5, AMap.get_set_self]
    · rw [AMap.get_set_ne _ _ s7, AMap.get_set_self]
    · rw [AMap.get_set_self]
  · simp only [if_neg h, Msg.add]
    refine ⟨?_, ?_, ?_, ?_⟩
    · rw [AMap.get_set_ne _ _ s2, AMap.get_set_self]
    · rw [AMap.get_set_self]
    · rw [AMap.get_set_ne _ _ (Ne.symm s5), AMap.get_set_ne _ _ (Ne.symm s3)]
    · rw [AMap.get_set_ne _ _ (Ne.symm s6), AMap.get_set_ne _ _ (Ne.symm s4)]

/-- What the code reports as the text of an error packet: everything behind byte 8. -/
def reported (rest : Bytes) : Bytes :=
  if 7 < rest.length ∧ rest[1]? = some 35 then (rest.drop 1).take 5 ++ 58 :: rest.drop 6 else rest.drop 1

theorem err_packet (h : Bytes) (hh : h.length = 4) (lo hi : UInt8) (rest : Bytes) :
    slice (h ++ 0xff :: lo :: hi :: rest) 5 7 = .ok [lo, hi] := by
  rw [slice_ok (by simp [hh]; omega)]
  congr 1
  rw [show h ++ 0xff :: lo :: hi :: rest = (h ++ [0xff]) ++ (lo :: hi :: rest) by simp]
  have e : Int.toNat 5 = (h ++ [(0xff : UInt8)]).length := by simp [hh]
  rw [e, List.drop_left]
  simp

theorem errorText_ok (h : Bytes) (hh : h.length = 4) (lo hi : UInt8) (rest : Bytes) (hr : rest ≠ []) :
    errorText (h ++ 0xff :: lo :: hi :: rest) = .ok (reported rest) := by
  have hpos := List.length_pos_iff.2 hr
  have hd : ∀ k, (h ++ 0xff :: lo :: hi :: rest).drop (7 + k) = rest.drop k := by
    intro k
    rw [show h ++ 0xff :: lo :: hi :: rest = (h ++ [0xff, lo, hi]) ++ rest by simp]
    rw [← List.drop_drop]
    have e : 7 = (h ++ [(0xff : UInt8), lo, hi]).length := by simp [hh]
    rw [e, List.drop_left]
  have hl : (h ++ 0xff :: lo :: hi :: rest).length = rest.length + 7 := by simp [hh]; omega
  generalize h ++ 0xff :: lo :: hi :: rest = d at *
  have h8 : d[8]? = rest[1]? := by
    have h7 := hd 0
    simp only [Nat.add_zero, List.drop_zero] at h7
    rw [← h7, List.getElem?_drop]
  have s8 : slice d 8 d.length = .ok (rest.drop 1) := by
    rw [slice_ok (by omega)]
    have := hd 1
    simp only [Int.reduceToNat, Nat.reduceAdd] at *
    rw [this, List.take_of_length_le (by simp; omega)]
  simp only [errorText, s8, reported]
  by_cases hlong : d.length > 14
  · obtain ⟨b, hb, hb2⟩ := idx_ok (d := d) (i := 8) (by omega) (by omega)
    simp only [Int.reduceToNat] at hb2
    rw [h8] at hb2
    simp only [hlong, ↓reduceIte, hb, Res.bind_ok, Res.pure_eq, hb2, Option.some.injEq]
    by_cases he : b = 35
    · have hc : 7 < rest.length ∧ b = 35 := ⟨by omega, he⟩
      rw [if_pos hc, if_pos (by simp [he])]
      have h13 : slice d 13 d.length = .ok (rest.drop 6) := by
        rw [slice_ok (by omega)]
        have := hd 6
        simp only [Int.reduceToNat, Nat.reduceAdd] at *
        rw [this, List.take_of_length_le (by simp; omega)]
      have h813 : slice d 8 13 = .ok ((rest.drop 1).take 5) := by
        rw [slice_ok (by omega)]
        have := hd 1
        simp only [Int.reduceToNat, Nat.reduceAdd] at *
        rw [this]; rfl
      simp [h13, h813]
    · rw [if_neg (by simp [he]), if_neg (fun hc => he hc.2)]
  · simp only [hlong, ↓reduceIte, Res.pure_eq, Res.bind_ok, Bool.false_eq_true]
    rw [if_neg (fun hc => hlong (by omega))]

/-- C64: the code of an error packet is reported, and the record is an error iff the code is not zero. -/
theorem mysql_error_code_partial (h : Bytes) (hh : h.length = 4) (code : Nat) (hcode : code < 65536) (rest : Bytes) (hr : rest ≠ []) (a : Attrs) :
    ∃ m, parseResponse (h ++ 0xff :: UInt8.ofNat (code % 256) :: UInt8.ofNat (code / 256) :: rest) a = .ok (true, m) ∧
      AMap.get m.attrs (bs "sql_error_code") = some (.int code) ∧
      AMap.get m.attrs (bs "is_error") = (if code ≠ 0 then some (.bool true) else AMap.get a (bs "is_error")) ∧
      AMap.get m.attrs (bs "error_type") = (if code ≠ 0 then some (.int 3) else AMap.get a (bs "error_type")) ∧
      AMap.get m.attrs (bs "sql_error_msg") = some (.str (Text.formatUtf8 (reported rest))) := by
  rw [show bs "sql_error_code" = kErrCode from rfl, show bs "sql_error_msg" = kErrMsg from rfl, show bs "is_error" = kIsError from rfl, show bs "error_type" = kErrorType from rfl] at *
  have e1 := err_packet h hh (UInt8.ofNat (code % 256)) (UInt8.ofNat (code / 256)) rest
  have e2 := errorText_ok h hh (UInt8.ofNat (code % 256)) (UInt8.ofNat (code / 256)) rest hr
  obtain ⟨_, e3, e4⟩ := tail_slice h hh 0xff (UInt8.ofNat (code % 256) :: UInt8.ofNat (code / 256) :: rest)
  have hcd : (UInt8.ofNat (code % 256)).toNat ||| (UInt8.ofNat (code / 256)).toNat <<< 8 = code := by
    rw [ofNat_toNat (by omega), ofNat_toNat (by omega), @or_shift _ _ 8 (by omega)]; omega
  generalize h ++ 0xff :: UInt8.ofNat (code % 256) :: UInt8.ofNat (code / 256) :: rest = d at *
  have hl : ¬ d.length < 6 := by rw [e4]; simp
  obtain ⟨h1, h2, h3, h4⟩ := err_attrs ⟨d, 0, a⟩ code (Text.formatUtf8 (reported rest)) _ rfl
  refine ⟨_, ?_, h1, h3, h4, h2⟩
  simp only [parseResponse, Tree.single, Tree.run, responseTree, shorter, hl, decide_false, Res.pure_eq, Res.bind_ok, Bool.false_eq_true, ↓reduceIte, goOn,
    Bool.not_true, List.isEmpty_cons]
  have i0 : idx [UInt8.ofNat (code % 256), UInt8.ofNat (code / 256)] 0 = .ok (UInt8.ofNat (code % 256)) := rfl
  have i1 : idx [UInt8.ofNat (code % 256), UInt8.ofNat (code / 256)] 1 = .ok (UInt8.ofNat (code / 256)) := rfl
  simp only [runChildren, Leaf.run, commandNot, e3, Res.bind_ok, Res.pure_eq, ne_eq, not_true_eq_false, decide_false, Bool.false_eq_true, ↓reduceIte,
    parseErr, e1, e2, i0, i1, hcd]
  split <;> rfl

/-- C64, the text: of an error packet of the 4.1 protocol (`#`, five characters of SQL state, text) the state is not
separated from the text by a colon as intended: the marker is looked for one byte too late. -/
theorem mysql_state_not_separated (state text : Bytes) (hs : state.length = 5) (hm : state.head? ≠ some 35) :
    reported (35 :: (state ++ text)) = state ++ text := by
  have h1 : (35 :: (state ++ text))[1]? = state.head? := by
    cases state with
    | nil => simp at hs
    | cons a r => rfl
  simp only [reported]
  rw [if_neg]
  · rfl
  · rintro ⟨_, h⟩
    rw [h1] at h
    exact hm h

/-- C64, the text: without SQL state (older protocol) the first character of the text is lost. -/
theorem mysql_text_loses_first (b : UInt8) (text : Bytes) (hm : text.head? ≠ some 35) : reported (b :: text) = text := by
  simp only [reported]
  rw [if_neg]
  · rfl
  · rintro ⟨_, h⟩
    apply hm
    rw [← h]
    cases text <;> rfl

/-- C21 fails for MySQL: an error packet cut before the text makes the response parser panic. -/
theorem mysql_short_error_panics (h : Bytes) (hh : h.length = 4) (code : Bytes) (h1 : code.length = 1 ∨ code.length = 2) (a : Attrs) :
    parseResponse (h ++ 0xff :: code) a = .panic := by
  obtain ⟨_, e3, e4⟩ := tail_slice h hh 0xff code
  have hp : parseErr ⟨h ++ 0xff :: code, 0, a⟩ = .panic := by
    rcases h1 with h1 | h1
    · have : slice (h ++ 0xff :: code) 5 7 = .panic := by simp only [slice]; rw [if_neg (by omega)]
      simp [parseErr, this]
    · obtain ⟨lo, hi, rfl⟩ : ∃ lo hi, code = [lo, hi] := by
        match code, h1 with
        | [x, y], _ => exact ⟨x, y, rfl⟩
      have hw := err_packet h hh lo hi []
      have ht : errorText (h ++ 0xff :: [lo, hi]) = .panic := by
        have hl : ¬ (h ++ 0xff :: [lo, hi]).length > 14 := by rw [e4]; simp
        have hs : slice (h ++ 0xff :: [lo, hi]) 8 (h ++ 0xff :: [lo, hi]).length = .panic := by
          simp only [slice]; rw [if_neg (by rw [e4]; simp)]
        simp only [errorText, hl, ↓reduceIte, Res.pure_eq, Res.bind_ok, Bool.false_eq_true, hs]
      simp [parseErr, hw, ht, idx]
  generalize h ++ 0xff :: code = d at *
  have hl : ¬ d.length < 6 := by omega
  simp only [parseResponse, Tree.single, Tree.run, responseTree, shorter, hl, decide_false, Res.pure_eq, Res.bind_ok, Bool.false_eq_true, ↓reduceIte, goOn,
    Bool.not_true, List.isEmpty_cons]
  simp [runChildren, Leaf.run, commandNot, e3, hp]

/-- C21, MySQL: no other payload makes the parsers panic. -/
theorem mysql_never_panics_partial (d : Bytes) (a : Attrs) :
    (∃ r, parseRequest d = .ok r) ∧ ((d.length < 6 ∨ 7 < d.length ∨ d[4]? ≠ some 0xff) → ∃ r, parseResponse d a = .ok r) := by
  by_cases h5 : d.length < 5
  · constructor
    · simp [parseRequest, Tree.single, Tree.run, requestTree, shorter, h5]
    · intro _
      simp [parseResponse, Tree.single, Tree.run, responseTree, shorter, show d.length < 6 by omega]
  · obtain ⟨h, c, r, hh, rfl⟩ : ∃ h c r, h.length = 4 ∧ d = h ++ c :: r := by
      refine ⟨d.take 4, (d.drop 4).headD 0, (d.drop 4).tail, by simp; omega, ?_⟩
      have : d.drop 4 ≠ [] := by intro e; have := congrArg List.length e; simp at this; omega
      cases hd : d.drop 4 with
      | nil => exact absurd hd this
      | cons x y => simp only [List.headD_cons, List.tail_cons]; rw [← hd, List.take_append_drop]
    obtain ⟨t1, t2, t3⟩ := tail_slice h hh c r
    have hstat : ∀ m sql, ∃ r, statement m sql = .ok r := by
      intro m sql; simp only [statement]; split <;> exact ⟨_, rfl⟩
    constructor
    · generalize h ++ c :: r = d at *
      simp only [parseRequest, Tree.single, Tree.run, requestTree, shorter, h5, decide_false, Res.pure_eq, Res.bind_ok, Bool.false_eq_true, ↓reduceIte, goOn,
        Bool.not_true, List.isEmpty_cons]
      obtain ⟨x1, hx1⟩ := hstat ⟨d, 0, []⟩ r
      obtain ⟨x2, hx2⟩ := hstat ⟨d, 0, []⟩ (dropNoParams r)
      have hf : ∀ (x : (Bool × Bool) × Msg) (sql : Bytes), statement ⟨d, 0, []⟩ sql = .ok x → x.2.data = d := by
        intro x sql hx
        simp only [statement] at hx
        split at hx <;> · cases hx; rfl
      have k1 : ∃ s m, Leaf.run ⟨commandNot 22, parsePrepare⟩ ⟨d, 0, []⟩ = .ok (s, m) ∧ m = if s = .fail then ⟨d, 0, []⟩ else m := by
        simp only [Leaf.run, commandNot, t2, Res.bind_ok, Res.pure_eq]
        split
        · exact ⟨_, _, rfl, by simp⟩
        · simp only [parsePrepare, t1, Res.bind_ok, statement]
          split
          · exact ⟨_, _, rfl, by simp⟩
          · exact ⟨_, _, rfl, by simp⟩
      have k2 : ∃ s m, Leaf.run ⟨commandNot 3, parseQuery⟩ ⟨d, 0, []⟩ = .ok (s, m) ∧ m = if s = .fail then ⟨d, 0, []⟩ else m := by
        simp only [Leaf.run, commandNot, t2, Res.bind_ok, Res.pure_eq]
        split
        · exact ⟨_, _, rfl, by simp⟩
        · simp only [parseQuery, t1, Res.bind_ok, statement]
          split
          · exact ⟨_, _, rfl, by simp⟩
          · exact ⟨_, _, rfl, by simp⟩
      have k3 : ∃ s m, Leaf.run ⟨commandNot 1, parseQuit⟩ ⟨d, 0, []⟩ = .ok (s, m) := by
        simp only [Leaf.run, commandNot, t2, Res.bind_ok, Res.pure_eq]
        split <;> exact ⟨_, _, rfl⟩
      obtain ⟨s1, m1, k1, f1⟩ := k1
      obtain ⟨s2, m2, k2, f2⟩ := k2
      obtain ⟨s3, m3, k3⟩ := k3
      simp only [runChildren, k1, Res.bind_ok]
      by_cases hs1 : s1 = .fail
      · rw [if_pos hs1] at f1
        subst f1
        simp only [hs1, ↓reduceIte, k2, Res.bind_ok]
        by_cases hs2 : s2 = .fail
        · rw [if_pos hs2] at f2
          subst f2
          simp only [hs2, ↓reduceIte, k3, Res.bind_ok]
          split <;> exact ⟨_, rfl⟩
        · rw [if_neg hs2]; exact ⟨_, rfl⟩
      · rw [if_neg hs1]; exact ⟨_, rfl⟩
    · intro hcond
      by_cases h6 : (h ++ c :: r).length < 6
      · simp only [parseResponse, Tree.single, Tree.run, responseTree, shorter, h6, decide_true, Res.pure_eq, Res.bind_ok, ↓reduceIte]
        exact ⟨_, rfl⟩
      · have k1 : (∃ x, parseErr ⟨h ++ c :: r, 0, a⟩ = .ok x) ∨ c ≠ 0xff := by
          by_cases hc : c = 0xff
          · subst hc
            left
            have hg : (h ++ (0xff : UInt8) :: r)[4]? = some 0xff := by
              obtain ⟨b, hb, hb2⟩ := idx_ok (d := h ++ (0xff : UInt8) :: r) (i := 4) (by omega) (by omega)
              rw [t2] at hb; cases hb; exact hb2
            have hlen : 7 < (h ++ (0xff : UInt8) :: r).length := by
              rcases hcond with h | h | h
              · exact absurd h h6
              · exact h
              · exact absurd hg h
            obtain ⟨lo, hi, rest, hr⟩ : ∃ lo hi rest, r = lo :: hi :: rest := by
              match r, t3 ▸ hlen with
              | lo :: hi :: rest, _ => exact ⟨lo, hi, rest, rfl⟩
              | [x], h => simp at h
              | [], h => simp at h
            subst hr
            have hrest : rest ≠ [] := by rintro rfl; rw [t3] at hlen; simp at hlen
            simp only [parseErr, err_packet h hh lo hi rest, errorText_ok h hh lo hi rest hrest, Res.bind_ok]
            simp only [idx]
            simp only [Int.reduceLE, ↓reduceIte, Int.toNat_zero, List.getElem?_cons_zero, Int.toNat_one, List.getElem?_cons_succ, Res.bind_ok, Res.pure_eq]
            split <;> exact ⟨_, rfl⟩
          · exact .inr hc
        generalize h ++ c :: r = d at *
        simp only [parseResponse, Tree.single, Tree.run, responseTree, shorter, h6, decide_false, Res.pure_eq, Res.bind_ok, Bool.false_eq_true, ↓reduceIte, goOn,
          Bool.not_true, List.isEmpty_cons]
        by_cases hc : c = 0xff
        · rcases k1 with ⟨⟨⟨ok, co⟩, m'⟩, k1⟩ | k1
          · have hok : ok = true := by
              revert k1
              simp only [parseErr]
              intro k1
              cases hs : slice d 5 7 with
              | ok w =>
                rw [hs] at k1
                simp only [Res.bind_ok] at k1
                cases h0 : idx w 0 with
                | ok lo =>
                  rw [h0] at k1
                  simp only [Res.bind_ok] at k1
                  cases h1 : idx w 1 with
                  | ok hi =>
                    rw [h1] at k1
                    simp only [Res.bind_ok] at k1
                    cases ht : errorText d with
                    | ok t =>
                      rw [ht] at k1
                      simp only [Res.bind_ok, Res.pure_eq] at k1
                      split at k1 <;> · cases k1; rfl
                    | err => rw [ht] at k1; simp at k1
                    | panic => rw [ht] at k1; simp at k1
                  | err => rw [h1] at k1; simp at k1
                  | panic => rw [h1] at k1; simp at k1
                | err => rw [h0] at k1; simp at k1
                | panic => rw [h0] at k1; simp at k1
              | err => rw [hs] at k1; simp at k1
              | panic => rw [hs] at k1; simp at k1
            subst hok
            cases co <;> simp [runChildren, Leaf.run, commandNot, t2, hc, k1]
          · exact absurd hc k1
        · rw [leaf_skip t2 hc]
          have l2 : Leaf.run ⟨notOk, accept⟩ ⟨d, 0, a⟩ = .ok (if c ≠ 0 ∧ c ≠ 0xfe then .fail else .complete, ⟨d, 0, a⟩) := by
            simp only [Leaf.run, notOk, t2, accept, Res.bind_ok, Res.pure_eq]
            by_cases hq : c ≠ 0 ∧ c ≠ 0xfe <;> simp [hq]
          simp only [runChildren, l2, Res.bind_ok]
          by_cases hq : c ≠ 0 ∧ c ≠ 0xfe
          · simp only [↓reduceIte, Leaf.run, commandNot, t2, noSql, accept, Res.bind_ok, Res.pure_eq]
            cases hsql : (Msg.mk d 0 a).has kSql <;> simp [hsql, hq]
          · simp [hq]

/-- C64: after a statement every response of at least six bytes is taken; without a statement only error, OK and EOF packets. -/
theorem mysql_other_response (h : Bytes) (hh : h.length = 4) (c : UInt8) (hc : c ≠ 0xff) (rest : Bytes) (hr : rest ≠ []) (a : Attrs) :
    parseResponse (h ++ c :: rest) a = .ok (decide (c = 0 ∨ c = 0xfe ∨ (AMap.get a kSql).isSome), ⟨h ++ c :: rest, 0, a⟩) := by
  obtain ⟨t1, t2, t3⟩ := tail_slice h hh c rest
  have hpos := List.length_pos_iff.2 hr
  generalize h ++ c :: rest = d at *
  have h6 : ¬ d.length < 6 := by omega
  simp only [parseResponse, Tree.single, Tree.run, responseTree, shorter, h6, decide_false, Res.pure_eq, Res.bind_ok, Bool.false_eq_true, ↓reduceIte, goOn,
    Bool.not_true, List.isEmpty_cons]
  rw [leaf_skip t2 hc]
  have l2 : Leaf.run ⟨notOk, accept⟩ ⟨d, 0, a⟩ = .ok (if c ≠ 0 ∧ c ≠ 0xfe then .fail else .complete, ⟨d, 0, a⟩) := by
    simp only [Leaf.run, notOk, t2, accept, Res.bind_ok, Res.pure_eq]
    by_cases hq : c ≠ 0 ∧ c ≠ 0xfe <;> simp [hq]
  simp only [runChildren, l2, Res.bind_ok]
  by_cases hq : c ≠ 0 ∧ c ≠ 0xfe
  · simp only [hq, ↓reduceIte, Leaf.run, commandNot, t2, noSql, accept, Res.bind_ok, Res.pure_eq, Msg.has]
    cases hsql : AMap.get a kSql <;> simp [hsql, hq]
  · have : c = 0 ∨ c = 0xfe ∨ (AMap.get a kSql).isSome := by
      by_cases h0 : c = 0
      · exact .inl h0
      · exact .inr (.inl (Decidable.byContradiction (fun h1 => hq ⟨h0, h1⟩)))
    simp [hq, this]

/-! ## Samples -/

example : Statement (bs "Select 1") := ⟨bs "select", by decide +kernel, bs "Select", bs " 1", by decide +kernel, by decide +kernel⟩
example : reported (bs "#42S02No table") = bs "42S02No table" := by decide +kernel

/-- C64: a payload whose command byte is 1 (`COM_QUIT`) is taken whatever its length byte and whatever follows, and marked as
needing no answer. -/
theorem mysql_quit (h : Bytes) (hh : h.length = 4) (r : Bytes) :
    parseRequest (h ++ 1 :: r) = .ok (true, ⟨h ++ 1 :: r, 0, [(bs "one_way", .bool true)]⟩) := by
  obtain ⟨t1, t2, t3⟩ := tail_slice h hh 1 r
  generalize h ++ 1 :: r = d at *
  have h5 : ¬ d.length < 5 := by omega
  simp only [parseRequest, Tree.single, Tree.run, requestTree, shorter, h5, decide_false, Res.pure_eq, Res.bind_ok, Bool.false_eq_true, ↓reduceIte, goOn,
    Bool.not_true, List.isEmpty_cons]
  rw [leaf_skip t2 (by decide), leaf_skip t2 (by decide)]
  simp only [runChildren, Leaf.run, commandNot, t2, Res.bind_ok, Res.pure_eq, parseQuit]
  rfl

end Kindling.Proto.Mysql
