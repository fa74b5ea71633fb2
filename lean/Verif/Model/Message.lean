import Verif.Model.Bytes

/-!
# Model of the remote protocol

`remote-processor/Message.cpp`, `RequestMessage.cpp`, `AnswerMessage.cpp` and the loop of
`RemoteProcessorServer.cpp`.

A connection is the list of the bytes that the peer sends before it closes its side.  Other network
errors (reset) and failures to write are not modelled.  Texts (`std::string`) are lists of bytes here.
The host is little endian.
-/

namespace PF

/-- A text: the bytes of a `std::string`. -/
abbrev BText := List Byte

/-! ## Sending -/

/-- `CMessage::writeString` (Message.cpp:85-94) at the end of what was written so far.  A text of 2^32
bytes or more does not fill the room allocated for it, and the assertion of `serialize`
(Message.cpp:143) fails. -/
def writeString (t : BText) : Out (List Byte) :=
  if t.length < 2 ^ 32 then .ok (encLE 4 t.length ++ t) else .abort

/-- The loops of `CRequestMessage::fillDataToSend` (RequestMessage.cpp:93-103). -/
def writeStrings : List BText → Out (List Byte)
  | [] => .ok []
  | t :: ts => (writeString t).bind fun a => (writeStrings ts).bind fun b => .ok (a ++ b)

/-- `computeChecksum` (Message.cpp:257-260). -/
def checksum (id : Byte) (data : List Byte) : Byte := data.foldl (· + ·) id

/-- `SYNC_WORD` (Message.h:147). -/
def syncWord : Nat := 0xBABE

/-- The bytes that `serialize` sends (Message.cpp:130-188). -/
def sendBytes (id : Byte) (data : List Byte) : List Byte :=
  encLE 2 syncWord ++ encLE 4 (1 + data.length) ++ [id] ++ data ++ [checksum id data]

/-- A request: `_strCommand` and `_argumentVector` (RequestMessage.h). -/
structure Request where
  command : BText
  arguments : List BText
deriving Repr, DecidableEq

/-- `gacDelimiters` (RequestMessage.cpp:40): space, tab, newline, vertical tab, form feed, carriage
return. -/
def trimDelimiters : List Byte := [0x20#8, 9#8, 10#8, 11#8, 12#8, 13#8]

/-- `CRequestMessage::trim` (RequestMessage.cpp:142-152). -/
def trim (t : BText) : BText :=
  let cut := (t.reverse.dropWhile (fun c => decide (c ∈ trimDelimiters))).reverse
  cut.dropWhile (fun c => decide (c ∈ trimDelimiters))

/-- `CRequestMessage(strCommand)`, which does not trim the command (RequestMessage.cpp:42-45). -/
def Request.new (command : BText) : Request := ⟨command, []⟩

/-- `addArgument` (RequestMessage.cpp:63-66). -/
def Request.addArgument (r : Request) (a : BText) : Request := ⟨r.command, r.arguments ++ [trim a]⟩

/-- Sending a request (RequestMessage.cpp:42-45, 92-103; Message.cpp:125-188). -/
def Request.send (r : Request) : Out (List Byte) :=
  (writeStrings (r.command :: r.arguments)).bind fun data => .ok (sendBytes 0#8 data)

/-- An answer: `_ucMsgId == ESuccessAnswer` and `_strAnswer` (AnswerMessage.h). -/
structure Answer where
  success : Bool
  text : BText
deriving Repr, DecidableEq

/-- Sending an answer (AnswerMessage.cpp:37-41, 73-85). -/
def Answer.send (a : Answer) : Out (List Byte) :=
  (writeStrings [a.text]).bind fun data => .ok (sendBytes (if a.success then 1#8 else 2#8) data)

/-! ## Receiving -/

/-- Result of a reception (Message.h `Result`), with `abort` for a failed assertion, an uncaught
exception or an access outside of the received data. -/
inductive Recv (α : Type) where
  | success (a : α) (rest : List Byte)
  | peerDisconnected
  | error
  | abort
deriving Repr, DecidableEq

/-- `asio::read` of `n` bytes into a zeroed buffer: the number of bytes transferred, the buffer, and
what is left.  When the peer closes early the call sets an error code, that the callers look at only if
no byte was transferred. -/
def sockRead (n : Nat) (st : List Byte) : Nat × List Byte × List Byte :=
  ((st.take n).length, st.take n ++ List.replicate (n - st.length) 0#8, st.drop n)

/-- The reading part of `serialize` (Message.cpp:190-250) up to the call of `collectReceivedData`:
message identifier and data.  A size of 0 makes `allocateData` ask for 2^64 - 1 bytes, and
`std::vector::resize` throws. -/
def receiveFrame (st : List Byte) : Recv (Byte × List Byte) :=
  let r1 := sockRead 2 st
  if r1.1 = 0 then .peerDisconnected
  else if decLE r1.2.1 ≠ syncWord then .error
  else
    let r2 := sockRead 4 r1.2.2
    if r2.1 = 0 then .error
    else
      let r3 := sockRead 1 r2.2.2
      if r3.1 = 0 then .error
      else if decLE r2.2.1 = 0 then .abort
      else
        let r4 := sockRead (decLE r2.2.1 - 1) r3.2.2
        if r4.1 = 0 then .error
        else
          let r5 := sockRead 1 r4.2.2
          if r5.1 = 0 then .error
          else if r5.2.1 ≠ [checksum (r3.2.1.headD 0#8) r4.2.1] then .error
          else .success (r3.2.1.headD 0#8, r4.2.1) r5.2.2

/-- What a C string made of these bytes and a final NUL holds (Message.cpp:110-114). -/
def cText (bs : List Byte) : BText := bs.takeWhile (· ≠ 0#8)

/-- `CMessage::readString` (Message.cpp:96-115) on the data from `_uiIndex` on: the text and the rest.
`abort` is the failed assertion of `readData` (74-87). -/
def readString (data : List Byte) : Out (BText × List Byte) :=
  if data.length < 4 then .abort
  else if (data.drop 4).length < decLE (data.take 4) then .abort
  else .ok (cText ((data.drop 4).take (decLE (data.take 4))), (data.drop 4).drop (decLE (data.take 4)))

/-- The loop of `CRequestMessage::collectReceivedData` (RequestMessage.cpp:107-124), without the
trimming.  `fuel` bounds the number of iterations; every iteration uses at least four bytes. -/
def readStrings : (fuel : Nat) → List Byte → Out (List BText)
  | _, [] => .ok []
  | 0, _ :: _ => .abort
  | n + 1, b :: bs => (readString (b :: bs)).bind fun r => (readStrings n r.2).bind fun ts => .ok (r.1 :: ts)

/-- `CRequestMessage::collectReceivedData` (RequestMessage.cpp:106-124). -/
def collectRequest (data : List Byte) : Out Request :=
  (readString data).bind fun r =>
    (readStrings r.2.length r.2).bind fun ts => .ok ⟨trim r.1, ts.map trim⟩

/-- `CAnswerMessage::collectReceivedData` and `success` (AnswerMessage.cpp:59-66, 87-95).  Data after
the text is left unread. -/
def collectAnswer (id : Byte) (data : List Byte) : Out Answer :=
  (readString data).bind fun r => .ok ⟨id = 1#8, r.1⟩

/-- End of `serialize` (Message.cpp:247-251). -/
def Recv.collect {α : Type} (f : Byte → List Byte → Out α) : Recv (Byte × List Byte) → Recv α
  | .success m rest =>
    match f m.1 m.2 with
    | .ok a => .success a rest
    | _ => .abort
  | .peerDisconnected => .peerDisconnected
  | .error => .error
  | .abort => .abort

/-- Receiving a request.  The message identifier is not checked. -/
def receiveRequest (st : List Byte) : Recv Request := (receiveFrame st).collect (fun _ d => collectRequest d)

/-- Receiving an answer. -/
def receiveAnswer (st : List Byte) : Recv Answer := (receiveFrame st).collect collectAnswer

/-! ## The server -/

/-- How the handling of a connection ends. -/
inductive Served where
  | closed
  | abort
deriving Repr, DecidableEq

/-- `handleNewConnection` (RemoteProcessorServer.cpp:116-168): the final state of the command handler,
the bytes answered, and how it ends.  The handler gives no answer when it stops the program.  `fuel`
bounds the number of requests. -/
def serve {σ : Type} (handle : σ → Request → Option Answer × σ) : (fuel : Nat) → σ → List Byte → σ × List Byte × Served
  | 0, x, _ => (x, [], .closed)
  | n + 1, x, st =>
    match receiveRequest st with
    | .abort => (x, [], .abort)
    | .success r rest =>
      match (handle x r).1.map Answer.send with
      | some (.ok out) =>
        let more := serve handle n (handle x r).2 rest
        (more.1, out ++ more.2.1, more.2.2)
      | _ => ((handle x r).2, [], .abort)
    | _ => (x, [], .closed)

end PF
