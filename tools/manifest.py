#!/usr/bin/env python3
"""Generates /verif/MANIFEST.json."""
import json, os
C = []
def c(prop, status, theorems, note=""):
    C.append(dict(property=prop, status=status, theorems=theorems, note=note))
B="Lcode.Beam2D."
G="Lcode.Cfg."
c("C01","proved",[G+x for x in ("last_write_wins","get_after_history","getfloat_after_history","getint_after_history","getbool_after_history","getbool_of_bool","unwritten_unchanged","geometry_never_circ","backend_after_history","init_lookup","copy_values","copy_forgets_backend")],
  "copy_forgets_backend is a finding: copy() of a GPU config is a numpy config.")
c("C02","proved",[G+x for x in ("goodSize_iff","adjusted_grid","adjust3d_succeeds","adjust3d_fails","adjusted_fineness","adjust3d_skips_capitals")],
  "Totality holds up to 18301 requested cells; adjust3d_fails proves the exception at 18302; '3D' in capitals skips the adjustment (finding).")
c("C03","proved",[G+"factorize_spec"])
c("C04","proved",[B+x for x in ("source_complete","source_layers","source_delivers_once","source_blocked_by_head")],
  "source_complete covers every beam without hypotheses; source_blocked_by_head is a finding: one particle ahead of the window blocks the whole source.")
c("C05","proved",[B+x for x in ("append_rows","concat_rows","getSubslice_rows","sort_rows","split_rows","split_conserves")])
c("C06","proved",[B+x for x in ("substeps_exact","substeps_need_positive_limit")])
c("C07","proved",[B+x for x in ("particles_conserved","window_accounted","drained_finished","last_layer_dropped")],
  "last_layer_dropped (finding): the last layer is always among the in-flight particles, which the code discards.")
c("C08","proved",[B+x for x in ("weights_conserve","layout_conserves","sweep_conserves_charge","layout_pointwise","sweep_pointwise")])
c("C09","proved",[B+x for x in ("push_causal","push_strictly_backwards","push_kept","push_lost_reason","halfPosition_in_layer","nodes_exist","nodes_exist_whole_cells","nodes_missing")],
  "nodes_missing (finding): coarse steps let the pusher read outside the field arrays.")
exec(open(os.path.join(os.path.dirname(os.path.abspath(__file__)),"manifest_more.py")).read()) if os.path.exists(os.path.join(os.path.dirname(os.path.abspath(__file__)),"manifest_more.py")) else None
here = os.path.dirname(os.path.abspath(__file__))
json.dump({"claims":C}, open(os.path.join(here,"..","MANIFEST.json"),"w"), indent=1)
print(len(C))
