import Verif.Model.Message

/-!
# Model of `asterisklint/file.py`

The reader classes form one generator chain.  Every line passes through all
stages before the next one is read, so each stage is a function from (state, line)
to (state, line, messages).
-/

namespace ALint

/-- `bytes` of Python, as read by file.py:77-88. -/
abbrev Bytes := List Nat

/-! ## `BinFileReader` -/

/-- Iterating over a binary file: the lines with their LF, `enumerate(fp)` in
file.py:74. -/
def physLines : Bytes → List Bytes
  | [] => []
  | b :: bs =>
    if b = 10 then [b] :: physLines bs
    else match physLines bs with
      | [] => [[b]]
      | l :: ls => (b :: l) :: ls

/-- One open file: name, number of lines already delivered, lines to come
(`_files`, `_generators`, `_filenames`, file.py:61-63). -/
structure Frame where
  name : Str
  idx : Nat
  rest : List Bytes

/-- `include` for a file that can be opened, file.py:67-75. -/
def openFrame (name : Str) (content : Bytes) : Frame := ⟨name, 0, physLines content⟩

/-- One round of `BinFileReader.__iter__`, file.py:77-88: drop exhausted files,
then deliver the next line of the innermost open one. -/
def nextLine : List Frame → Option (Where × List Frame)
  | [] => none
  | fr :: stack =>
    match fr.rest with
    | [] => nextLine stack
    | l :: ls => some (⟨fr.name, (fr.idx : Int) + 1, l⟩, ⟨fr.name, fr.idx + 1, ls⟩ :: stack)

/-! ## `EncodingReader` -/

/-- A UTF-8 continuation byte.  Code: file.py:98. -/
def isCont (b : Nat) : Bool := 0x80 ≤ b && b ≤ 0xbf

/-- `data.decode('utf-8')` with strict error handling: overlong forms, surrogates
and code points above 0x10ffff are errors.  Code: file.py:98. -/
def utf8Decode : Bytes → Option Str
  | [] => some []
  | b0 :: rest =>
    if b0 < 0x80 then (utf8Decode rest).map (Char.ofNat b0 :: ·)
    else if b0 < 0xc2 then none
    else if b0 < 0xe0 then
      match rest with
      | b1 :: r =>
        if isCont b1 then
          (utf8Decode r).map (Char.ofNat ((b0 - 0xc0) * 64 + (b1 - 0x80)) :: ·)
        else none
      | _ => none
    else if b0 < 0xf0 then
      match rest with
      | b1 :: b2 :: r =>
        let cp := (b0 - 0xe0) * 4096 + (b1 - 0x80) * 64 + (b2 - 0x80)
        if isCont b1 && isCont b2 && 0x800 ≤ cp && !(0xd800 ≤ cp && cp ≤ 0xdfff) then
          (utf8Decode r).map (Char.ofNat cp :: ·)
        else none
      | _ => none
    else
      match rest with
      | b1 :: b2 :: b3 :: r =>
        let cp := (b0 - 0xf0) * 262144 + (b1 - 0x80) * 4096 + (b2 - 0x80) * 64 + (b3 - 0x80)
        if isCont b1 && isCont b2 && isCont b3 && 0x10000 ≤ cp && cp ≤ 0x10ffff then
          (utf8Decode r).map (Char.ofNat cp :: ·)
        else none
      | _ => none

/-- The bytes 0x80 to 0x9f in cp1252.  Code: file.py:101. -/
def cp1252High : List (Option Nat) := [some 0x20ac, none, some 0x201a, some 0x192, some 0x201e, some 0x2026, some 0x2020, some 0x2021, some 0x2c6, some 0x2030, some 0x160, some 0x2039, some 0x152, none, some 0x17d, none, none, some 0x2018, some 0x2019, some 0x201c, some 0x201d, some 0x2022, some 0x2013, some 0x2014, some 0x2dc, some 0x2122, some 0x161, some 0x203a, some 0x153, none, some 0x17e, some 0x178]

/-- One byte of `data.decode('cp1252')`.  Code: file.py:101. -/
def cp1252Byte (b : Nat) : Option Char :=
  if 0x80 ≤ b ∧ b < 0xa0 then ((cp1252High[b - 0x80]?).getD none).map Char.ofNat
  else some (Char.ofNat b)

/-- `data.decode('cp1252')`.  Code: file.py:101. -/
def cp1252Decode : Bytes → Option Str
  | [] => some []
  | b :: bs =>
    match cp1252Byte b, cp1252Decode bs with
    | some c, some cs => some (c :: cs)
    | _, _ => none

/-- `EncodingReader`, file.py:95-102. -/
def encodingStage (w : Where) : List Msg × Except Exc Str :=
  match utf8Decode w.line with
  | some s => ([], .ok s)
  | none =>
    ([⟨.E_FILE_UTF8_BAD, w, [], none⟩],
      match cp1252Decode w.line with
      | some s => .ok s
      | none => .error .unicodeDecodeError)

/-! ## `NoCtrlReader` -/

/-- The set `illegal`, file.py:110-113. -/
def isIllegalCtrl (c : Char) : Bool :=
  [0, 1, 2, 3, 4, 5, 6, 7, 8, 0xb, 0xc, 0xe, 0xf, 0x10, 0x11, 0x12, 0x13, 0x14, 0x15, 0x16, 0x17,
    0x18, 0x19, 0x1a, 0x1b, 0x1c, 0x1d, 0x1e, 0x1f].contains c.toNat

/-- `NoCtrlReader`, file.py:115-121; the data pass through. -/
def ctrlStage (w : Where) (data : Str) : List Msg :=
  if data.any isIllegalCtrl then [⟨.W_FILE_CTRL_CHAR, w, [], none⟩] else []

/-! ## `FileformatReader` -/

/-- An entry of `fileinfo`, file.py:140-151.  The `None`s it starts with are
overwritten in the round that appends it, so they never show. -/
structure FInfo where
  name : Str
  isDos : Bool
  hasLf : Bool
  last : Where

/-- The messages for one popped entry, file.py:132-135. -/
def ffPopMsgs (i : FInfo) : List Msg :=
  if i.isDos && i.hasLf then [⟨.W_FILE_DOS_EOFCRLF, i.last, [], none⟩]
  else if !i.isDos && !i.hasLf then [⟨.W_FILE_UNIX_NOLF, i.last, [], none⟩]
  else []

/-- `_pop_fileinfo`, file.py:128-135 (`none` for `stop_at=None`); top of the stack
first. -/
def popFileinfo (stop : Option Str) : List FInfo → List Msg × List FInfo
  | [] => ([], [])
  | i :: is =>
    if some i.name = stop then ([], i :: is)
    else
      let r := popFileinfo stop is
      (ffPopMsgs i ++ r.1, r.2)

/-- `data.endswith(t)`.  Code: file.py:155-156. -/
def endsWith (t data : Str) : Bool := t.reverse.isPrefixOf data.reverse

/-- The stack handling at the start of a round, file.py:143-153: `none` means that
the line starts a new entry. -/
def ffEnter (st : List FInfo) (w : Where) : List Msg × Option FInfo × List FInfo :=
  match st with
  | [] => ([], none, [])
  | i :: is =>
    if i.name = w.filename then ([], some i, is)
    else if (i :: is).any (fun j => j.name = w.filename) then
      let r := popFileinfo (some w.filename) (i :: is)
      match r.2 with
      | [] => (r.1, none, [])
      | j :: js => (r.1, some j, js)
    else ([], none, i :: is)

/-- One round of `FileformatReader.__iter__`, file.py:142-176. -/
def ffStage (st : List FInfo) (w : Where) (data : Str) : List FInfo × List Msg × Str :=
  let hasCrlf := endsWith (c! "\r\n") data
  let hasLf := endsWith (c! "\n") data
  let e := ffEnter st w
  let isDos := match e.2.1 with
    | some i => i.isDos
    | none => hasCrlf || !hasLf
  let msgs :=
    if isDos then
      if hasLf && !hasCrlf then [⟨.W_FILE_DOS_BARELF, w, [], none⟩] else []
    else
      if hasCrlf then [⟨.W_FILE_UNIX_CRLF, w, [], none⟩] else []
  let data' :=
    if hasCrlf then data.take (data.length - 2)
    else if hasLf then data.take (data.length - 1)
    else data
  (⟨w.filename, isDos, hasLf, w⟩ :: e.2.2, e.1 ++ msgs, data')

/-- The end of input, file.py:178. -/
def ffEnd (st : List FInfo) : List Msg := (popFileinfo none st).1

/-- `FileformatReader.__iter__` over a stream of lines, file.py:137-178; `text w` is
the decoded line `w`.  The state afterwards and the messages, without those at the
end of the input (`ffEnd`). -/
def ffRun (text : Where → Str) (st : List FInfo) : List Where → List FInfo × List Msg
  | [] => (st, [])
  | w :: ws =>
    let s := ffStage st w (text w)
    let r := ffRun text s.1 ws
    (r.1, s.2.1 ++ r.2)

/-! ## `AsteriskCommentReader` -/

/-- `_simple_comment_split`, file.py:206-218: warn?, data, comment. -/
def simpleSplit (data : Str) : Bool × Str × Str :=
  match splitOnce ';' data with
  | none => (false, data, [])
  | some (a, _) =>
    let warn := match a.getLast? with
      | some c => !isBlank c
      | none => false
    let d := rstripP isBlank a
    (warn, d, data.drop d.length)

/-- The loop of `_lookback_comment_split`, file.py:230-247: the joined parts and
the comment.  Fuel = number of rounds; every round but the last consumes a
semicolon, so `length + 1` suffices. -/
def lookbackFuel : Nat → Str → Str × Str
  | 0, data => (data, [])
  | fuel + 1, data =>
    match splitOnce ';' data with
    | none => (data, [])
    | some (a, b) =>
      if a.getLast? = some '\\' then
        let r := lookbackFuel fuel b
        (a.dropLast ++ ';' :: r.1, r.2)
      else (a, ';' :: b)

/-- `_move_middle_space_to_comment`, file.py:251-262. -/
def moveMiddle (data comment : Str) : Bool × Str × Str :=
  let warn := match data.getLast? with
    | some c => !comment.isEmpty && !isBlank c
    | none => false
  let d := rstripP isBlank data
  (warn, d, data.drop d.length ++ comment)

/-- `_lookback_comment_split`, file.py:221-248. -/
def lookbackSplit (data : Str) : Bool × Str × Str :=
  let r := lookbackFuel (data.length + 1) data
  moveMiddle r.1 r.2

/-- `asterisk_comment_split`, file.py:189-203. -/
def commentSplit (data : Str) : Bool × Str × Str :=
  if data.contains '\\' then lookbackSplit data else simpleSplit data

/-- One round of `AsteriskCommentReader.__iter__`, file.py:264-275. -/
def commentStage (w : Where) (data : Str) : List Msg × Str × Str :=
  let eol := match data.getLast? with
    | some c => isBlank c
    | none => false
  let data := if eol then rstripP isBlank data else data
  let r := commentSplit data
  ((if eol then [⟨.W_WSH_EOL, w, [], none⟩] else []) ++
    (if r.1 then [⟨.W_WSH_COMMENT, w, [], none⟩] else []), r.2)

/-! ## The whole `FileReader` chain for one line -/

/-- One line through Encoding, NoCtrl, Fileformat and Comment readers: the new
Fileformat state, the messages in the order they are issued and (data, comment),
or the exception of the decoder.  Code: file.py:96-102, 115-121, 141-176, 264-275. -/
def fileStage (st : List FInfo) (w : Where) :
    List Msg × Except Exc (List FInfo × Str × Str) :=
  let e := encodingStage w
  match e.2 with
  | .error x => (e.1, .error x)
  | .ok data =>
    let c := ctrlStage w data
    let f := ffStage st w data
    let m := commentStage w f.2.2
    (e.1 ++ c ++ f.2.1 ++ m.1, .ok (f.1, m.2))

end ALint
