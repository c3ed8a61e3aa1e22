{
 "Main|contradicting modes exit with 0": [
  "C56_exit"
 ],
 "Main|help exits with 1": [
  "C56_exit"
 ],
 "AdjacencyTyped|no inequalities": [
  "C65_vertices"
 ],
 "AdjacencyTyped|no line break": [
  "C65_vertices"
 ],
 "AdjacencyTyped|undefined behaviour as failure": [
  "C65_known_undefined_false",
  "C64_facets"
 ],
 "InputSections|classes of a reduced section formed as for facets": [
  "C67_reading",
  "C67_facets_dd"
 ],
 "InputSections|wrong action in the check of maps": [
  "C69_vertices"
 ],
 "InputSections|reduced rays stored as vertices": [
  "C67_reading"
 ]
}