import Verif.Codec.Model

/-! # The static table (neqo-qpack/src/static_table.rs) -/
namespace Neqo.Qp
open Neqo.Codec

/-- `StaticTableEntry` (static_table.rs:8-12). -/
structure SEntry where
  index : Nat
  name : Bytes
  value : Bytes
deriving DecidableEq, Repr

/-- A row of the table; the code has the bytes of the strings. -/
def row (i : Nat) (n v : String) : SEntry := ⟨i, n.toUTF8.toList, v.toUTF8.toList⟩

/-- `HEADER_STATIC_TABLE` (static_table.rs:34-134). -/
def staticTable : List SEntry := [
  row 0 ":authority" "",
  row 1 ":path" "/",
  row 2 "age" "0",
  row 3 "content-disposition" "",
  row 4 "content-length" "0",
  row 5 "cookie" "",
  row 6 "date" "",
  row 7 "etag" "",
  row 8 "if-modified-since" "",
  row 9 "if-none-match" "",
  row 10 "last-modified" "",
  row 11 "link" "",
  row 12 "location" "",
  row 13 "referer" "",
  row 14 "set-cookie" "",
  row 15 ":method" "CONNECT",
  row 16 ":method" "DELETE",
  row 17 ":method" "GET",
  row 18 ":method" "HEAD",
  row 19 ":method" "OPTIONS",
  row 20 ":method" "POST",
  row 21 ":method" "PUT",
  row 22 ":scheme" "http",
  row 23 ":scheme" "https",
  row 24 ":status" "103",
  row 25 ":status" "200",
  row 26 ":status" "304",
  row 27 ":status" "404",
  row 28 ":status" "503",
  row 29 "accept" "*/*",
  row 30 "accept" "application/dns-message",
  row 31 "accept-encoding" "gzip, deflate, br",
  row 32 "accept-ranges" "bytes",
  row 33 "access-control-allow-headers" "cache-control",
  row 34 "access-control-allow-headers" "content-type",
  row 35 "access-control-allow-origin" "*",
  row 36 "cache-control" "max-age=0",
  row 37 "cache-control" "max-age=2592000",
  row 38 "cache-control" "max-age=604800",
  row 39 "cache-control" "no-cache",
  row 40 "cache-control" "no-store",
  row 41 "cache-control" "public, max-age=31536000",
  row 42 "content-encoding" "br",
  row 43 "content-encoding" "gzip",
  row 44 "content-type" "application/dns-message",
  row 45 "content-type" "application/javascript",
  row 46 "content-type" "application/json",
  row 47 "content-type" "application/x-www-form-urlencoded",
  row 48 "content-type" "image/gif",
  row 49 "content-type" "image/jpeg",
  row 50 "content-type" "image/png",
  row 51 "content-type" "text/css",
  row 52 "content-type" "text/html; charset=utf-8",
  row 53 "content-type" "text/plain",
  row 54 "content-type" "text/plain;charset=utf-8",
  row 55 "range" "bytes=0-",
  row 56 "strict-transport-security" "max-age=31536000",
  row 57 "strict-transport-security" "max-age=31536000; includesubdomains",
  row 58 "strict-transport-security" "max-age=31536000; includesubdomains; preload",
  row 59 "vary" "accept-encoding",
  row 60 "vary" "origin",
  row 61 "x-content-type-options" "nosniff",
  row 62 "x-xss-protection" "1; mode=block",
  row 63 ":status" "100",
  row 64 ":status" "204",
  row 65 ":status" "206",
  row 66 ":status" "302",
  row 67 ":status" "400",
  row 68 ":status" "403",
  row 69 ":status" "421",
  row 70 ":status" "425",
  row 71 ":status" "500",
  row 72 "accept-language" "",
  row 73 "access-control-allow-credentials" "FALSE",
  row 74 "access-control-allow-credentials" "TRUE",
  row 75 "access-control-allow-headers" "*",
  row 76 "access-control-allow-methods" "get",
  row 77 "access-control-allow-methods" "get, post, options",
  row 78 "access-control-allow-methods" "options",
  row 79 "access-control-expose-headers" "content-length",
  row 80 "access-control-request-headers" "content-type",
  row 81 "access-control-request-method" "get",
  row 82 "access-control-request-method" "post",
  row 83 "alt-svc" "clear",
  row 84 "authorization" "",
  row 85 "content-security-policy" "script-src 'none'; object-src 'none'; base-uri 'none'",
  row 86 "early-data" "1",
  row 87 "expect-ct" "",
  row 88 "forwarded" "",
  row 89 "if-range" "",
  row 90 "origin" "",
  row 91 "purpose" "prefetch",
  row 92 "server" "",
  row 93 "timing-allow-origin" "*",
  row 94 "upgrade-insecure-requests" "1",
  row 95 "user-agent" "",
  row 96 "x-forwarded-for" "",
  row 97 "x-frame-options" "deny",
  row 98 "x-frame-options" "sameorigin"]

end Neqo.Qp
