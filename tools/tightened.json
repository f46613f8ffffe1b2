{
 "i1": {
  "tightened": [
   "C20_value",
   "C20_centre_and_edge",
   "C20_range_and_monotone",
   "C20_outside_integer",
   "C20_units",
   "C21_ignores_middle",
   "C21_short",
   "C21_shape"
  ],
  "note": "C21 did not notice: the taper was a helper of the statement. The illumination theorems are now stated on the returned arrays with 10^(c/20) written out."
 },
 "f1": {
  "edit": "divide by the maximum of the row instead of maximum minus minimum",
  "note": "C28 speaks about the 2-d case only, so its theorems hold."
 },
 "p5": {
  "tightened": [
   "C40_shipped"
  ],
  "note": "q is excluded in the shipped configuration, so a fit still starts within its bounds; C40_shipped (new) demands the bounds for every choice of excluded parameters."
 },
 "g3": {
  "tightened": [
   "C38_stored"
  ],
  "note": "C38_header spoke about the list of indices only; C38_stored (new) is about the row in the file."
 },
 "z21": {
  "tightened": [
   "C71_scale"
  ],
  "note": "C71 said nothing about the colours; C71_scale (new) fixes both ends of the scale."
 },
 "y1": {
  "tightened": [
   "C35_value",
   "C35_none"
  ],
  "note": "Found by reading the statements before the run."
 },
 "y2": {
  "tightened": [
   "C35_value"
  ],
  "note": "Found by reading the statements before the run."
 },
 "y3": {
  "tightened": [
   "C35_value"
  ],
  "note": "Found by reading the statements before the run."
 },
 "y4": {
  "tightened": [
   "C39_first",
   "C39_stored"
  ],
  "note": "Found by reading the statements before the run."
 }
}