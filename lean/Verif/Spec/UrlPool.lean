import Verif.Model.Basic
import Verif.Spec.Addr
/-!
A pool of connections that serves URLs (C109): what a URL asks for, and what may happen.
-/
namespace Spec.UrlPool
open Wv

abbrev Text := List Byte

/-- A URL, as far as the pool looks at it. The port is 0 when the URL could not be read. -/
structure Url where
  proto : Text
  user : Text
  password : Text
  port : Nat
deriving DecidableEq

/-- The answer of the name service when it is asked for the host of a URL. -/
inductive Ans where
  | found (a : Spec.Addr.Addr)
  | waiting
  | unknown
deriving DecidableEq

/-- What speaks with a server: HTTP, plain or over SSL, or FTP. -/
inductive Kind where
  | http (ssl : Bool)
  | ftp
deriving DecidableEq

/-- Where a connection goes, and as whom. -/
structure Target where
  addr : Spec.Addr.Addr
  port : Nat
  user : Text
deriving DecidableEq

end Spec.UrlPool
