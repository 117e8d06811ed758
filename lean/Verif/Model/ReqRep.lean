import Verif.Model.Dict
/-!
# The client's store of requests and answers

`ClientReqRepStoreFile` over `DirectoryStore`: a file for each request, a line for the request and for each answer of a node.
A string is a list of characters. Requests and replies are kept in serialized form; what the serializer does is left out. The
name of a file is any string, so are the characters that a file system does not take.
-/
namespace Verif.ReqRep

abbrev Str := List Char

/-- plenum/persistence/client_req_rep_store_file.py:19-20, `LinePrefixes`. -/
inductive Kind where
  | request | ack | nack | reject | reply
deriving DecidableEq, Repr

/-- plenum/persistence/client_req_rep_store_file.py:30, of `__init__`. -/
def Kind.char : Kind → Char
  | .request => '0'
  | .ack => 'A'
  | .nack => 'N'
  | .reject => 'J'
  | .reply => 'R'

/-- plenum/persistence/client_req_rep_store_file.py:31, of `__init__`. -/
def delimiter : Char := '~'

/-- The characters at which `str.splitlines` ends a line. Two for one break, `\r\n`, make one empty line more here, which has
no prefix. plenum/persistence/client_req_rep_store_file.py:151, of `_getLinesWithPrefix`. -/
def isBreak (c : Char) : Bool :=
  c.toNat == 10 || c.toNat == 13 || c.toNat == 11 || c.toNat == 12 || c.toNat == 28 || c.toNat == 29 || c.toNat == 30 ||
    c.toNat == 133 || c.toNat == 8232 || c.toNat == 8233

/-- The line break that is written. storage/directory_store.py:46, of `appendToValue`. -/
def linesep : Char := '\n'

/-- The files: name and content. storage/directory_store.py:10-28, `DirectoryStore`. -/
abbrev Files := Dict Str Str

/-- plenum/persistence/client_req_rep_store_file.py:38-40, `create_key`. -/
def createKey (idr : Str) (reqId : Nat) : Str := idr ++ ',' :: Nat.toDigits 10 reqId

/-- storage/directory_store.py:43-46, `appendToValue`. -/
def append (fs : Files) (key value : Str) : Files :=
  fs.set key ((fs.get? key).getD [] ++ (value ++ [linesep]))

/-- What is written down: the request, or what a node answered to it. -/
inductive Item where
  | request (ser : Str)
  | ack (sender : Str)
  | nack (sender reason : Str)
  | reject (sender reason : Str)
  | reply (sender ser : Str)
deriving DecidableEq, Repr

/-- The line for an item. plenum/persistence/client_req_rep_store_file.py:50-53, `addRequest`; 59-61, `addAck`; 68-71,
`addNack`; 78-81, `addReject`; 87-91, `addReply`. -/
def lineOf : Item → Str
  | .request ser => Kind.request.char :: delimiter :: ser
  | .ack sender => Kind.ack.char :: delimiter :: sender
  | .nack sender reason => Kind.nack.char :: delimiter :: (sender ++ delimiter :: reason)
  | .reject sender reason => Kind.reject.char :: delimiter :: (sender ++ delimiter :: reason)
  | .reply sender ser => Kind.reply.char :: delimiter :: (sender ++ delimiter :: ser)

/-- An item for a request, given by its sender and its number. -/
structure Entry where
  idr : Str
  reqId : Nat
  item : Item
deriving DecidableEq, Repr

/-- plenum/persistence/client_req_rep_store_file.py:45-92, `addRequest`, `addAck`, `addNack`, `addReject`, `addReply`. -/
def add (fs : Files) (e : Entry) : Files := append fs (createKey e.idr e.reqId) (lineOf e.item)

def run (h : List Entry) : Files := h.foldl add []

/-- plenum/persistence/client_req_rep_store_file.py:94-96, `hasRequest`. -/
def hasRequest (fs : Files) (idr : Str) (reqId : Nat) : Bool := fs.has (createKey idr reqId)

/-- `str.splitlines`; `cur` is the line so far. plenum/persistence/client_req_rep_store_file.py:151. -/
def splitLines (cur : Str) : Str → List Str
  | [] => if cur = [] then [] else [cur]
  | c :: r => if isBreak c then cur :: splitLines [] r else splitLines (cur ++ [c]) r

/-- plenum/persistence/client_req_rep_store_file.py:147-152, `_getLinesWithPrefix`. -/
def linesWithPrefix (fs : Files) (idr : Str) (reqId : Nat) (k : Kind) : List Str :=
  match fs.get? (createKey idr reqId) with
  | none => []
  | some data => (splitLines [] data).filter (fun l => [k.char, delimiter].isPrefixOf l)

/-- plenum/persistence/client_req_rep_store_file.py:98-102, `getRequest`, in serialized form. -/
def getRequest (fs : Files) (idr : Str) (reqId : Nat) : Option Str :=
  (linesWithPrefix fs idr reqId .request).head?.map (fun l => l.drop 2)

/-- plenum/persistence/client_req_rep_store_file.py:110-114, `getAcks`. -/
def getAcks (fs : Files) (idr : Str) (reqId : Nat) : List Str :=
  (linesWithPrefix fs idr reqId .ack).map (fun l => l.drop 2)

/-- `sender, reason = line[2:].split(delimiter, 1)`; `none` where the unpacking raises.
plenum/persistence/client_req_rep_store_file.py:122. -/
def splitOnce : Str → Option (Str × Str)
  | [] => none
  | c :: r => if c = delimiter then some ([], r) else (splitOnce r).map (fun p => (c :: p.1, p.2))

/-- plenum/persistence/client_req_rep_store_file.py:120-124, of `getNacks`; the same lines are in `getRejects` and
`_getSerializedReplies`. -/
def collect (d : Dict Str Str) : List Str → Option (Dict Str Str)
  | [] => some d
  | l :: r =>
    match splitOnce (l.drop 2) with
    | none => none
    | some (sender, x) => collect (d.set sender x) r

/-- plenum/persistence/client_req_rep_store_file.py:116-124, `getNacks`. -/
def getNacks (fs : Files) (idr : Str) (reqId : Nat) : Option (Dict Str Str) :=
  collect [] (linesWithPrefix fs idr reqId .nack)

/-- plenum/persistence/client_req_rep_store_file.py:126-134, `getRejects`. -/
def getRejects (fs : Files) (idr : Str) (reqId : Nat) : Option (Dict Str Str) :=
  collect [] (linesWithPrefix fs idr reqId .reject)

/-- plenum/persistence/client_req_rep_store_file.py:154-163, `_getSerializedReplies`; 104-108, `getReplies`, in serialized
form. -/
def getReplies (fs : Files) (idr : Str) (reqId : Nat) : Option (Dict Str Str) :=
  collect [] (linesWithPrefix fs idr reqId .reply)

/-- `key.split(',')[1]`; nothing where there is no comma. plenum/persistence/client_req_rep_store_file.py:42-44,
`items_from_key`. -/
def secondItem : Str → Str
  | [] => []
  | c :: r => if c = ',' then r.takeWhile (fun d => d ≠ ',') else secondItem r

/-- `int` is that of a string of digits. plenum/persistence/client_req_rep_store_file.py:33-36, `lastReqId`. -/
def lastReqId (fs : Files) : Nat :=
  fs.foldl (fun m e => max m (Nat.ofDigitChars 10 (secondItem e.1) 0)) 0

end Verif.ReqRep
