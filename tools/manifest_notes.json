{
 "C01": {
  "note": "Equivalence: the streamed call succeeds with a result iff stepping does and has the same types; for all operators whose output structure is a function of input and state structure."
 },
 "C02": {
  "note": "Equivalence of the whole call with the two chunked calls."
 },
 "C03": {
  "note": ""
 },
 "C04": {
  "note": ""
 },
 "C05": {
  "note": ""
 },
 "C07": {
  "note": ""
 },
 "C08": {
  "note": ""
 },
 "C09": {
  "note": ""
 },
 "C06": {
  "note": "For everything in the inductive catalogue Lib (all shipped operators and all Compose/Join/Map/FFill nestings), single steps and series; inputs of the declared structure."
 },
 "C16": {
  "note": "Exact condition, both directions (C16_ffill_iff), for operators that are sane, uniform and steady on a float signature."
 }
}