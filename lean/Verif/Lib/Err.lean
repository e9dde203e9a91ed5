/-! Error values shared by the transport models. -/
namespace Neqo

/-- The variants of `neqo_transport::Error` (`neqo-transport/src/lib.rs`) that the
modelled functions return, plus `panic` for a failed assertion, an out-of-range
slice or an integer underflow. -/
inductive Err where
  | panic
  | protocolViolation
  | flowControl
  | finalSize
  | streamState
  | frameEncoding
  | noMoreData
  | streamLimit
  | invalidStreamId
  | invalidInput
  deriving Repr, DecidableEq

end Neqo
