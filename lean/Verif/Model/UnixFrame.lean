/-! The wire format of the Unix domain transport
(/repo/score/message_passing/unix_domain/unix_domain_engine.cpp:190-274), the socket addresses
(/repo/score/message_passing/unix_domain/unix_domain_socket_address.h) and the size checks of the sending API
(/repo/score/message_passing/client_connection.cpp, unix_domain/unix_domain_server.cpp).

A connection is a stream socket: the receiver sees the concatenation of what was sent.  Bytes are in host order,
little endian.  `sendmsg` is modelled as writing the whole frame or failing without writing anything (partial
writes, several threads and signals are the subject of Model/UnixWrite.lean).  The list given to the receiver is all that
the peer will ever send before it closes the connection; how it is cut into packets is invisible because of
MSG_WAITALL. -/
namespace Verif.UnixFrame

/-- A protocol message: its code and its payload. -/
abbrev Msg := UInt8 × List UInt8

/-- SendProtocolMessage (unix_domain_engine.cpp:190-219): code, size cast to std::uint16_t, payload. -/
def frame (m : Msg) : List UInt8 :=
  let size := m.2.length % 65536
  m.1 :: UInt8.ofNat (size % 256) :: UInt8.ofNat (size / 256) :: m.2

/-- What a sequence of sends puts on the stream. -/
def stream (ms : List Msg) : List UInt8 := ms.flatMap frame

inductive Err where
  | epipe
  | emsgsize
  | eio
  deriving DecidableEq, Repr

/-- ReceiveProtocolMessage (unix_domain_engine.cpp:221-274) with a receive buffer of `cap` bytes: the result and the rest
of the stream.  The first recvmsg reads up to three bytes; `size` is initialised to zero, so that bytes that do not arrive
before the peer closes the connection are zero.  The size is compared with the buffer size cast to std::uint16_t. -/
def receive (cap : Nat) : List UInt8 → Except Err Msg × List UInt8
  | [] => (.error .epipe, [])
  | code :: r =>
    let size := (r.getD 0 0).toNat + 256 * (r.getD 1 0).toNat
    let body := r.drop 2
    if size = 0 then (.ok (code, []), body)
    else if cap % 65536 < size then (.error .emsgsize, body)
    else if body.length < size then (.error .eio, [])
    else (.ok (code, body.take size), body.drop size)

theorem receive_shorter {cap : Nat} {s r : List UInt8} {m : Msg} (h : receive cap s = (.ok m, r)) :
    r.length < s.length := by
  unfold receive at h
  split at h
  · simp at h
  · dsimp only at h
    repeat' split at h
    all_goals simp at h
    all_goals
      rw [← h.2]
      simp
      try omega

/-- The receiving endpoint: ReceiveProtocolMessage until it fails, which drops the connection
(unix_domain_server.cpp:101-110, client_connection.cpp:452-467): the messages and the error. -/
def receiveAll (cap : Nat) (s : List UInt8) : List Msg × Err :=
  match h : receive cap s with
  | (.error e, _) => ([], e)
  | (.ok m, r) =>
    let rest := receiveAll cap r
    (m :: rest.1, rest.2)
termination_by s.length
decreasing_by exact receive_shorter h

/-- RegisterPosixEndpoint (unix_domain_engine.cpp:94-101): the engine's receive buffer grows to the largest
max_receive_size of the endpoints registered so far. -/
def bufferSize (endpoints : List Nat) : Nat := endpoints.foldl (fun b m => if b < m then m else b) 0

/-- UnixDomainSocketAddress (unix_domain_socket_address.h:52-58) with isAbstract: the 108 bytes of sun_path; one zero
byte, then at most 108 - 1 - 1 bytes of the identifier, padded with zeros. -/
def address (path : List UInt8) : List UInt8 :=
  let len := min (108 - 1 - 1) path.length
  0 :: path.take len ++ List.replicate (108 - 1 - len) 0

/-- CreateMessagePassingName (/repo/score/mw/com/impl/bindings/lola/messaging/message_passing_client_cache.cpp:193-207):
"LoLa_2_", the process id in decimal, "_QM" or "_ASIL_B".  Process ids are non-negative. -/
def lolaName (asilB : Bool) (pid : Nat) : List Char :=
  "LoLa_2_".toList ++ Nat.toDigits 10 pid ++ (if asilB then "_ASIL_B".toList else "_QM".toList)

/-- The bytes of an ASCII identifier. -/
def bytes (s : List Char) : List UInt8 := s.map (fun c => UInt8.ofNat c.toNat)

end Verif.UnixFrame
